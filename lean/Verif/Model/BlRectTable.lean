/-! Generated by tools/gen_blrect.py: the 5075 decimal literals of
/repo/src/oscillator/lookup_tables/bl_rect.rs:1-5077 (`BANDLIMITED_RECT`), each times `10 ^ blRectDigits`. -/

namespace Verif.FMath

/-- number of decimal digits the literals are scaled by -/
def blRectDigits : Nat := 9

/-- bl_rect.rs:2-65 -/
def blRectChunk0 : List Nat := [
  0, 16665675, 33326100, 49975347, 66608220, 83219180, 99802820, 116353676, 132866280, 149335430, 165755470,
  182121320, 198427500, 214668970, 230840240, 246936260, 262951760, 278881760, 294721200, 310465160,
  326108600, 341646430, 357074380, 372387230, 387580100, 402649130, 417589430, 432396200, 447065530,
  461592470, 475973800, 490204480, 504280570, 518198970, 531954940, 545544500, 558964800, 572210800,
  585281400, 598171000, 610877600, 623397470, 635727760, 647865360, 659808340, 671552300, 683095400,
  694435360, 705569300, 716494300, 727210600, 737715800, 748006200, 758080100, 767935800, 777571900,
  786989330, 796184500, 805155200, 813902740, 822425200, 830720960, 838790240, 846631170]
/-- bl_rect.rs:66-129 -/
def blRectChunk1 : List Nat := [
  854246260, 861632650, 868791160, 875719900, 882422570, 888894200, 895140500, 901157500, 906948700,
  912512840, 917850100, 922964700, 927855550, 932522700, 936968200, 941193700, 945201040, 948990000,
  952563900, 955923740, 959072300, 962009970, 964740100, 967263760, 969583800, 971702800, 973625400,
  975344600, 976877200, 978216050, 979366840, 980333600, 981113800, 981717350, 982145100, 982399460,
  982483600, 982400600, 982154200, 981747150, 981185260, 980470840, 979606000, 978596200, 977444800,
  976155700, 974729800, 973174700, 971494400, 969689200, 967766900, 965728900, 963577600, 961321500,
  958962600, 956504170, 953954760, 951309200, 948579600, 945767000, 942876940, 939911840, 936877850, 933774200]
/-- bl_rect.rs:130-193 -/
def blRectChunk2 : List Nat := [
  930609640, 927387540, 924112860, 920786600, 917415000, 914000700, 910549300, 907063250, 903547300,
  900006500, 896439900, 892857700, 889260000, 885653100, 882036860, 878415470, 874795440, 871178100,
  867568800, 863970000, 860385400, 856816100, 853268600, 849742950, 846244900, 842777850, 839342800,
  835943200, 832582830, 829263600, 825989700, 822759030, 819580000, 816453400, 813380700, 810364600,
  807408400, 804512440, 801678540, 798911330, 796211060, 793579500, 791017300, 788530470, 786116500,
  783778700, 781515840, 779333100, 777230860, 775207040, 773266550, 771408300, 769632400, 767942550,
  766338050, 764817100, 763387100, 762042000, 760782900, 759612700, 758529700, 757534300, 756627260, 755810300]
/-- bl_rect.rs:194-257 -/
def blRectChunk3 : List Nat := [
  755078260, 754435900, 753879370, 753410700, 753028200, 752730900, 752520000, 752395000, 752354000,
  752395000, 752518530, 752722700, 753009560, 753375500, 753820600, 754340350, 754936400, 755608100,
  756352960, 757168400, 758055270, 759010700, 760035400, 761121600, 762274100, 763485600, 764760600,
  766093000, 767484400, 768928470, 770425700, 771973900, 773572300, 775216200, 776904460, 778639140,
  780411200, 782223460, 784072000, 785955600, 787869000, 789814050, 791788940, 793786470, 795812960,
  797854900, 799918600, 801999330, 804094430, 806202100, 808323300, 810450400, 812582900, 814722100,
  816859660, 818998340, 821136000, 823267760, 825395170, 827508700, 829618000, 831712200, 833794600, 835855960]
/-- bl_rect.rs:258-321 -/
def blRectChunk4 : List Nat := [
  837902200, 839926200, 841929900, 843910200, 845863040, 847790960, 849688300, 851556060, 853390200,
  855191800, 856958030, 858685900, 860376240, 862029140, 863638200, 865207700, 866733850, 868212300,
  869646600, 871036200, 872375370, 873667800, 874907300, 876099000, 877238600, 878326360, 879361150,
  880342360, 881268500, 882140340, 882959070, 883721600, 884427960, 885077200, 885671000, 886207640,
  886687340, 887111400, 887477800, 887788830, 888040300, 888237060, 888376950, 888462200, 888488230,
  888461350, 888377900, 888241000, 888048400, 887802060, 887506070, 887154900, 886751950, 886298400,
  885793000, 885239660, 884637700, 883989300, 883291900, 882550800, 881762440, 880932150, 880060000, 879144970]
/-- bl_rect.rs:322-385 -/
def blRectChunk5 : List Nat := [
  878191050, 877196430, 876165800, 875096500, 873993160, 872855700, 871684800, 870483800, 869250950,
  867991570, 866703570, 865390500, 864053130, 862692950, 861311700, 859909600, 858490700, 857053700,
  855600060, 854135630, 852655600, 851166400, 849668900, 848162300, 846650900, 845132700, 843613800,
  842090300, 840568100, 839049160, 837531500, 836017700, 834512050, 833010730, 831518950, 830035100,
  828566100, 827110650, 825666400, 824238500, 822828770, 821438100, 820063300, 818712950, 817380200,
  816075500, 814790700, 813534700, 812304140, 811101100, 809926900, 808780130, 807667430, 806582200,
  805532600, 804515900, 803534200, 802585000, 801670200, 800794400, 799956600, 799155100, 798390500, 797666550]
/-- bl_rect.rs:386-449 -/
def blRectChunk6 : List Nat := [
  796981500, 796335500, 795728600, 795165540, 794640360, 794160100, 793716800, 793317500, 792959870,
  792644740, 792371030, 792140200, 791951060, 791806160, 791700070, 791637700, 791617700, 791636500,
  791699100, 791802760, 791945000, 792134050, 792355700, 792621000, 792925500, 793267700, 793648960,
  794069470, 794521900, 795015900, 795544740, 796107950, 796704300, 797334800, 797997100, 798692940,
  799421500, 800178050, 800964100, 801782670, 802625300, 803492840, 804389900, 805310600, 806255100,
  807218700, 808206800, 809215200, 810240500, 811287940, 812351470, 813430100, 814524770, 815631570,
  816752300, 817883400, 819024740, 820176900, 821337760, 822500500, 823672300, 824848830, 826027400, 827208460]
/-- bl_rect.rs:450-513 -/
def blRectChunk7 : List Nat := [
  828392740, 829573300, 830753270, 831929860, 833101870, 834270800, 835433800, 836591700, 837736850,
  838876800, 840002360, 841118340, 842222100, 843313400, 844385450, 845447800, 846490500, 847516830,
  848522960, 849509950, 850478530, 851425700, 852348500, 853252230, 854129430, 854983750, 855812130,
  856613930, 857392500, 858139400, 858862200, 859555500, 860219300, 860854100, 861458240, 862032530,
  862576600, 863090040, 863569860, 864016830, 864436450, 864817800, 865170800, 865488100, 865773000,
  866024900, 866241300, 866426940, 866577800, 866695170, 866777000, 866828100, 866845670, 866828200,
  866777600, 866695500, 866580500, 866432300, 866252100, 866039450, 865796450, 865521550, 865214400, 864877500]
/-- bl_rect.rs:514-577 -/
def blRectChunk8 : List Nat := [
  864511500, 864114700, 863690560, 863236670, 862755100, 862245600, 861709700, 861147760, 860561250,
  859949230, 859313200, 858653500, 857970950, 857268330, 856541930, 855796500, 855032900, 854248700,
  853448600, 852630440, 851796400, 850945650, 850083350, 849204400, 848316430, 847415700, 846501600,
  845580500, 844651000, 843713600, 842767950, 841816500, 840861800, 839900600, 838939100, 837973950,
  837008060, 836043000, 835077170, 834113000, 833151640, 832195760, 831242140, 830295200, 829354700,
  828419600, 827495160, 826578860, 825674060, 824779100, 823893600, 823021770, 822163400, 821321300,
  820491700, 819676940, 818880700, 818101760, 817338200, 816595100, 815871360, 815165400, 814481900, 813817860]
/-- bl_rect.rs:578-641 -/
def blRectChunk9 : List Nat := [
  813177600, 812558050, 811961230, 811388400, 810839600, 810313340, 809812200, 809335600, 808886350,
  808460350, 808062100, 807689700, 807346100, 807025700, 806734200, 806469900, 806235100, 806024500,
  805843500, 805689630, 805564300, 805468100, 805397300, 805355370, 805341840, 805356000, 805397000,
  805467550, 805563300, 805686800, 805836560, 806014300, 806218740, 806449060, 806704940, 806987000,
  807292900, 807624000, 807981250, 808360000, 808762670, 809188800, 809637000, 810107950, 810601950,
  811114700, 811649000, 812201900, 812775100, 813364800, 813975040, 814600770, 815243840, 815902100,
  816576060, 817265150, 817966300, 818681540, 819408540, 820148800, 820897000, 821657300, 822427100, 823204000]
/-- bl_rect.rs:642-705 -/
def blRectChunk10 : List Nat := [
  823988800, 824780600, 825577260, 826380500, 827188850, 827999100, 828812360, 829627700, 830445900,
  831261340, 832077260, 832895000, 833707500, 834518200, 835323000, 836127040, 836925450, 837716000,
  838500440, 839277800, 840046700, 840805400, 841556800, 842297200, 843024000, 843741060, 844446000,
  845137060, 845815900, 846478500, 847125900, 847757760, 848375700, 848977600, 849558830, 850122870,
  850668670, 851197800, 851705970, 852196460, 852662860, 853111500, 853538630, 853943940, 854327400,
  854692160, 855033100, 855351450, 855645360, 855919100, 856168100, 856393300, 856595160, 856773000,
  856929540, 857062300, 857170200, 857254700, 857311900, 857347800, 857360400, 857348560, 857312900, 857252800]
/-- bl_rect.rs:706-769 -/
def blRectChunk11 : List Nat := [
  857170400, 857064960, 856934700, 856783000, 856609340, 856409250, 856190000, 855948750, 855683860,
  855400100, 855093240, 854768700, 854419700, 854052900, 853667600, 853262900, 852837000, 852393900,
  851936700, 851458900, 850966160, 850454450, 849930640, 849390100, 848838030, 848269640, 847686800,
  847090800, 846486030, 845869360, 845240300, 844601500, 843955040, 843300400, 842633100, 841961700,
  841282250, 840599660, 839908660, 839212900, 838514150, 837812660, 837107400, 836402540, 835695740,
  834987000, 834278050, 833571700, 832866670, 832162500, 831464900, 830767330, 830075600, 829389800,
  828709900, 828034300, 827366230, 826707070, 826054700, 825412500, 824778200, 824156800, 823544140, 822942140]
/-- bl_rect.rs:770-833 -/
def blRectChunk12 : List Nat := [
  822352700, 821774960, 821212000, 820661540, 820125340, 819602250, 819094900, 818603700, 818128470,
  817667000, 817224600, 816799800, 816389500, 815999700, 815626600, 815271440, 814935860, 814620600,
  814322530, 814044600, 813787000, 813548800, 813331600, 813135560, 812958600, 812802700, 812665340,
  812551800, 812457200, 812384840, 812331300, 812300300, 812289600, 812298800, 812332330, 812384070,
  812455830, 812550070, 812661470, 812795640, 812949600, 813122000, 813314300, 813528300, 813758700,
  814007800, 814276900, 814562560, 814866600, 815188100, 815527200, 815882800, 816257000, 816643060,
  817046100, 817466700, 817898750, 818348100, 818809030, 819283840, 819772700, 820272600, 820782900, 821306940]
/-- bl_rect.rs:834-897 -/
def blRectChunk13 : List Nat := [
  821839200, 822380660, 822935760, 823497600, 824067530, 824645400, 825231250, 825822300, 826419650,
  827023500, 827629900, 828245760, 828858850, 829477850, 830100300, 830723300, 831344500, 831972660,
  832596300, 833220060, 833841150, 834459700, 835079700, 835691100, 836304700, 836912160, 837512550,
  838108200, 838698600, 839282330, 839858100, 840426450, 840987900, 841540750, 842078570, 842612100,
  843133000, 843644560, 844142260, 844630900, 845105600, 845566870, 846016100, 846452830, 846871730,
  847281600, 847673900, 848052860, 848411860, 848760000, 849091300, 849403440, 849703000, 849982300,
  850246250, 850492700, 850720350, 850931050, 851125700, 851301700, 851457660, 851597200, 851716300, 851817970]
/-- bl_rect.rs:898-961 -/
def blRectChunk14 : List Nat := [
  851904870, 851966260, 852014400, 852040350, 852050500, 852041660, 852013230, 851966700, 851904000,
  851818800, 851719700, 851599800, 851467000, 851311400, 851137800, 850949500, 850742700, 850520130,
  850280940, 850028630, 849756300, 849467800, 849166500, 848850500, 848520300, 848171800, 847813370,
  847437600, 847052100, 846651800, 846240340, 845816700, 845382800, 844936600, 844480930, 844015540,
  843537030, 843053760, 842560050, 842058800, 841549300, 841031800, 840510250, 839979950, 839447500,
  838908730, 838365100, 837816400, 837266700, 836714100, 836158000, 835601100, 835041940, 834483300,
  833925100, 833369700, 832809400, 832254400, 831701500, 831152500, 830606500, 830060960, 829524040, 828989570]
/-- bl_rect.rs:962-1025 -/
def blRectChunk15 : List Nat := [
  828459260, 827939400, 827423040, 826914130, 826411370, 825917100, 825431800, 824956240, 824487750,
  824030500, 823581500, 823143600, 822717100, 822301860, 821899700, 821510500, 821129860, 820766400,
  820414300, 820073070, 819749100, 819437000, 819140300, 818857970, 818592300, 818338800, 818100330,
  817881900, 817675000, 817486700, 817313730, 817154900, 817013440, 816888600, 816780600, 816689550,
  816615160, 816554000, 816513960, 816488200, 816480040, 816487900, 816513100, 816556450, 816613550,
  816688400, 816777700, 816885400, 817007600, 817147430, 817302400, 817471270, 817656160, 817856850,
  818072440, 818302150, 818548300, 818805630, 819077100, 819364000, 819662450, 819975900, 820300160, 820636500]
/-- bl_rect.rs:1026-1089 -/
def blRectChunk16 : List Nat := [
  820987340, 821346800, 821716100, 822100460, 822492400, 822896060, 823306740, 823727670, 824157660,
  824595330, 825042670, 825495800, 825957600, 826422400, 826895000, 827371240, 827855600, 828341960,
  828834240, 829328840, 829826830, 830326900, 830828850, 831331970, 831838000, 832344200, 832848000,
  833354400, 833856900, 834359900, 834861000, 835359000, 835854000, 836344300, 836833400, 837316700,
  837795400, 838269350, 838736200, 839196740, 839651000, 840099160, 840538560, 840972070, 841394960,
  841809800, 842215960, 842612700, 842998200, 843376000, 843740200, 844093900, 844437960, 844768600,
  845089300, 845396300, 845692100, 845974000, 846243260, 846499560, 846742450, 846971150, 847185500, 847388270]
/-- bl_rect.rs:1090-1153 -/
def blRectChunk17 : List Nat := [
  847574000, 847746000, 847903900, 848046300, 848174200, 848287700, 848386100, 848469140, 848538160,
  848592160, 848628700, 848652900, 848660230, 848651950, 848629950, 848591000, 848537740, 848471600,
  848388430, 848291750, 848179460, 848053160, 847912970, 847758600, 847588500, 847408000, 847211100,
  847000840, 846779000, 846544440, 846295360, 846035200, 845761400, 845478100, 845183100, 844875700,
  844557340, 844228860, 843891600, 843543050, 843184530, 842818260, 842442700, 842057940, 841667300,
  841266330, 840859530, 840446950, 840028050, 839601600, 839173260, 838736200, 838295100, 837850870,
  837402640, 836950400, 836496530, 836040260, 835580600, 835122760, 834660950, 834199400, 833737900, 833277600]
/-- bl_rect.rs:1154-1217 -/
def blRectChunk18 : List Nat := [
  832815950, 832356900, 831900950, 831445400, 830993950, 830542900, 830099500, 829657440, 829220300,
  828786130, 828360260, 827938440, 827524200, 827112700, 826711830, 826316900, 825930400, 825549300,
  825177670, 824814900, 824462830, 824120000, 823784350, 823459570, 823144850, 822841900, 822549160,
  822267400, 821997760, 821740270, 821494000, 821258250, 821036300, 820827960, 820630800, 820446130,
  820275800, 820117800, 819973950, 819842040, 819724600, 819619950, 819530900, 819454250, 819391400,
  819342430, 819308200, 819288300, 819279900, 819286400, 819309200, 819344000, 819392100, 819452700,
  819528900, 819618400, 819719600, 819836800, 819965200, 820107400, 820262500, 820430700, 820608900, 820802400]
/-- bl_rect.rs:1218-1281 -/
def blRectChunk19 : List Nat := [
  821006800, 821220900, 821447850, 821689400, 821938300, 822199100, 822470700, 822753370, 823044800,
  823346850, 823657800, 823977500, 824306250, 824644500, 824989100, 825342060, 825702200, 826067200,
  826441600, 826821900, 827207860, 827597000, 827993750, 828393900, 828798830, 829207700, 829618700,
  830035700, 830454300, 830872830, 831295500, 831717850, 832140500, 832565500, 832989630, 833414260,
  833838000, 834260170, 834680400, 835098600, 835516200, 835929200, 836340800, 836746700, 837149140,
  837548000, 837941170, 838329300, 838711740, 839088700, 839458900, 839823960, 840178900, 840529560,
  840871400, 841205060, 841531000, 841846900, 842155500, 842454400, 842743460, 843023600, 843293370, 843552700]
/-- bl_rect.rs:1282-1345 -/
def blRectChunk20 : List Nat := [
  843800960, 844038800, 844267700, 844483700, 844687700, 844881240, 845062550, 845231700, 845388100,
  845536770, 845668900, 845789100, 845898150, 845994350, 846076550, 846146350, 846206370, 846249800,
  846282400, 846302700, 846308350, 846301440, 846282900, 846251250, 846205830, 846148430, 846078400,
  845996900, 845902100, 845794740, 845676060, 845544160, 845400870, 845247030, 845080300, 844903770,
  844714400, 844514130, 844303670, 844083250, 843850430, 843610300, 843358500, 843100250, 842828100,
  842551300, 842263400, 841966750, 841664550, 841352200, 841031600, 840708500, 840374500, 840033350,
  839687800, 839336200, 838980560, 838618640, 838253140, 837881000, 837506950, 837128600, 836746160, 836363550]
/-- bl_rect.rs:1346-1409 -/
def blRectChunk21 : List Nat := [
  835976360, 835587740, 835197700, 834805100, 834413470, 834021870, 833627340, 833233950, 832842950,
  832451460, 832060500, 831672970, 831289470, 830905850, 830525930, 830149300, 829775450, 829406700,
  829041700, 828683560, 828326170, 827979270, 827636600, 827299200, 826967240, 826643300, 826326500,
  826016700, 825715600, 825422200, 825135900, 824857060, 824589800, 824330800, 824080200, 823841630,
  823609100, 823385830, 823178770, 822977400, 822786000, 822607800, 822438660, 822283150, 822135270,
  822001640, 821876600, 821763600, 821663100, 821574400, 821499300, 821432650, 821379660, 821337800,
  821307960, 821289800, 821282800, 821288000, 821305500, 821336900, 821378650, 821431160, 821497860, 821571230]
/-- bl_rect.rs:1410-1473 -/
def blRectChunk22 : List Nat := [
  821660940, 821760900, 821871900, 821993050, 822126200, 822269700, 822423700, 822589200, 822765400,
  822949650, 823145500, 823352750, 823565800, 823790400, 824024560, 824265660, 824515460, 824774560,
  825041500, 825317800, 825600600, 825891500, 826187700, 826491700, 826800100, 827115700, 827437340,
  827765200, 828095850, 828433750, 828774030, 829118800, 829467950, 829818840, 830172660, 830531060,
  830890300, 831253800, 831616940, 831982430, 832347150, 832712800, 833078560, 833443600, 833809600,
  834172600, 834535840, 834896600, 835256340, 835613300, 835965800, 836316700, 836665100, 837008540,
  837347150, 837683400, 838012900, 838338700, 838661000, 838974060, 839280600, 839583340, 839878000, 840167460]
/-- bl_rect.rs:1474-1537 -/
def blRectChunk23 : List Nat := [
  840448200, 840722440, 840988000, 841248150, 841498400, 841738200, 841973800, 842197900, 842410560,
  842617700, 842815200, 843000700, 843176960, 843346700, 843503300, 843651500, 843786000, 843911500,
  844027100, 844132500, 844226240, 844309450, 844381900, 844442100, 844493300, 844531360, 844557600,
  844575760, 844581840, 844577200, 844558060, 844530200, 844492730, 844443200, 844382640, 844311800,
  844228860, 844134900, 844033100, 843919630, 843795700, 843661100, 843516300, 843361500, 843197460,
  843026400, 842842940, 842650530, 842450860, 842241100, 842022200, 841797100, 841561850, 841318400,
  841071600, 840811900, 840547800, 840278200, 840000900, 839717750, 839427900, 839130160, 838831250, 838526700]
/-- bl_rect.rs:1538-1601 -/
def blRectChunk24 : List Nat := [
  838217100, 837901900, 837583540, 837260000, 836935700, 836606000, 836273900, 835939400, 835601300,
  835264700, 834924040, 834584360, 834240200, 833898540, 833556600, 833214700, 832870700, 832531700,
  832193500, 831856100, 831519000, 831185800, 830856140, 830525600, 830202340, 829878870, 829563300,
  829246940, 828938900, 828633070, 828333500, 828039800, 827751930, 827468000, 827192540, 826921100,
  826658300, 826402000, 826150900, 825909730, 825677600, 825451000, 825231800, 825022400, 824819560,
  824627400, 824444350, 824266730, 824101200, 823945460, 823797640, 823660800, 823531270, 823413700,
  823305400, 823208500, 823119940, 823042330, 822975400, 822918500, 822870550, 822834000, 822809300, 822792300]
/-- bl_rect.rs:1602-1665 -/
def blRectChunk25 : List Nat := [
  822787300, 822791640, 822809340, 822833800, 822870300, 822917760, 822973300, 823041200, 823117430,
  823205600, 823302300, 823407500, 823524950, 823652300, 823785300, 823930260, 824084900, 824247000,
  824418070, 824598550, 824786500, 824984250, 825190070, 825399800, 825618740, 825847300, 826082400,
  826323500, 826571050, 826824300, 827085400, 827352050, 827624000, 827900470, 828181300, 828470770,
  828759600, 829055850, 829355540, 829658300, 829963400, 830273100, 830584200, 830898760, 831216400,
  831532600, 831851800, 832171100, 832491460, 832815700, 833137630, 833457900, 833779300, 834099350,
  834418500, 834734300, 835048200, 835363860, 835675240, 835985900, 836288000, 836592400, 836887660, 837185000]
/-- bl_rect.rs:1666-1729 -/
def blRectChunk26 : List Nat := [
  837477200, 837761040, 838046250, 838321000, 838589850, 838858100, 839118200, 839369300, 839618270,
  839860560, 840095200, 840321000, 840543030, 840754700, 840960000, 841156540, 841347700, 841530100,
  841702800, 841868900, 842024800, 842171970, 842308000, 842437600, 842560200, 842670560, 842773140,
  842862700, 842946600, 843018800, 843082800, 843136670, 843180900, 843216100, 843241900, 843254300,
  843258900, 843255000, 843241300, 843216900, 843180240, 843138700, 843085470, 843021330, 842949300,
  842865700, 842776360, 842674550, 842565830, 842447100, 842319130, 842183200, 842039760, 841886340,
  841723200, 841555800, 841376900, 841192200, 841000440, 840797600, 840593160, 840378200, 840157030, 839929760]
/-- bl_rect.rs:1730-1793 -/
def blRectChunk27 : List Nat := [
  839696300, 839458300, 839210300, 838961200, 838707030, 838443340, 838179770, 837907900, 837632500,
  837354800, 837073500, 836786570, 836498140, 836208200, 835913060, 835620000, 835317970, 835020540,
  834718350, 834415560, 834116000, 833810200, 833507900, 833204700, 832903150, 832600700, 832299350,
  832000800, 831703900, 831408500, 831114530, 830821750, 830534600, 830249400, 829968040, 829691800,
  829416040, 829146700, 828881100, 828620800, 828364100, 828113000, 827868200, 827629900, 827393530,
  827167500, 826945700, 826730300, 826522650, 826322200, 826127300, 825941500, 825760960, 825591600,
  825426300, 825273900, 825125500, 824986900, 824854140, 824732240, 824619230, 824515000, 824420450, 824334200]
/-- bl_rect.rs:1794-1857 -/
def blRectChunk28 : List Nat := [
  824252960, 824184300, 824122250, 824074750, 824032070, 823999500, 823975740, 823960840, 823957440,
  823960800, 823976000, 823998700, 824031830, 824071700, 824124040, 824184600, 824251600, 824328060,
  824416640, 824509500, 824612900, 824724560, 824846100, 824974360, 825110000, 825256000, 825407400,
  825570170, 825736050, 825911640, 826094150, 826278900, 826478960, 826680300, 826887600, 827103260,
  827324870, 827552500, 827782700, 828020000, 828261800, 828510050, 828759800, 829015500, 829276400,
  829537450, 829807040, 830075200, 830349400, 830623000, 830901200, 831180450, 831463930, 831746040,
  832031000, 832316800, 832603500, 832890800, 833175500, 833463970, 833747270, 834033850, 834318900, 834601640]
/-- bl_rect.rs:1858-1921 -/
def blRectChunk29 : List Nat := [
  834884200, 835165300, 835441470, 835715350, 835989100, 836260740, 836525900, 836789500, 837051150,
  837305700, 837556900, 837803000, 838044050, 838281800, 838515300, 838740900, 838961800, 839178100,
  839387100, 839589400, 839785300, 839979050, 840159700, 840336600, 840506300, 840669900, 840823300,
  840973600, 841110900, 841243270, 841366600, 841484370, 841588560, 841688630, 841779950, 841862500,
  841936230, 842001100, 842058540, 842104300, 842146000, 842179500, 842198900, 842210600, 842217200,
  842211200, 842197500, 842176800, 842145560, 842108550, 842057600, 842002700, 841938730, 841863800,
  841783400, 841692500, 841593200, 841488100, 841374300, 841251200, 841122100, 840985300, 840841650, 840689060]
/-- bl_rect.rs:1922-1985 -/
def blRectChunk30 : List Nat := [
  840530200, 840364600, 840193400, 840013300, 839827100, 839637340, 839437540, 839233700, 839025600,
  838811460, 838591000, 838367400, 838134100, 837901100, 837662040, 837420340, 837175970, 836925000,
  836673700, 836417730, 836158340, 835896000, 835633500, 835368000, 835099700, 834829600, 834561200,
  834291160, 834018400, 833747740, 833473600, 833201770, 832931400, 832659400, 832390550, 832123000,
  831852700, 831589500, 831324200, 831064460, 830804200, 830550300, 830296640, 830046400, 829800670,
  829558000, 829320430, 829083600, 828854600, 828628800, 828407800, 828195600, 827985050, 827778640,
  827581050, 827386300, 827201250, 827021200, 826846000, 826679200, 826516700, 826362970, 826216900, 826076100]
/-- bl_rect.rs:1986-2049 -/
def blRectChunk31 : List Nat := [
  825943700, 825819130, 825700940, 825591400, 825489460, 825395700, 825309500, 825229350, 825159000,
  825097100, 825042700, 824998260, 824961700, 824932100, 824912000, 824897700, 824894850, 824897500,
  824911360, 824931500, 824961200, 824997900, 825043300, 825097600, 825157760, 825228330, 825305800,
  825391050, 825485050, 825585070, 825694260, 825809100, 825932560, 826063900, 826201700, 826344500,
  826497300, 826653360, 826816300, 826989500, 827166560, 827346500, 827534300, 827728300, 827928540,
  828131300, 828340100, 828555100, 828772900, 828994150, 829222900, 829452000, 829686340, 829924170,
  830163840, 830407500, 830653700, 830903770, 831153400, 831406240, 831660030, 831915260, 832172200, 832430060]
/-- bl_rect.rs:2050-2113 -/
def blRectChunk32 : List Nat := [
  832687700, 832949100, 833206300, 833464800, 833723300, 833980200, 834235370, 834492560, 834746700,
  834999800, 835250400, 835499800, 835745400, 835988640, 836228800, 836465660, 836701100, 836931650,
  837158140, 837381960, 837600050, 837815100, 838024300, 838230300, 838428700, 838623940, 838814440,
  838997240, 839174600, 839346650, 839514100, 839672000, 839826000, 839972400, 840112900, 840245250,
  840370900, 840490500, 840602000, 840707360, 840804000, 840895100, 840977250, 841051800, 841118100,
  841176750, 841228900, 841271640, 841306570, 841335700, 841356200, 841366770, 841371400, 841368100,
  841355500, 841335360, 841307900, 841272950, 841230700, 841178600, 841118000, 841052600, 840978400, 840897260]
/-- bl_rect.rs:2114-2177 -/
def blRectChunk33 : List Nat := [
  840807400, 840712300, 840607700, 840497800, 840380970, 840257800, 840126700, 839989540, 839846000,
  839694260, 839539230, 839376700, 839208250, 839033540, 838854430, 838670730, 838481070, 838286340,
  838085830, 837884070, 837674860, 837462700, 837247000, 837026950, 836803730, 836578000, 836349550,
  836116730, 835881770, 835644600, 835406200, 835166000, 834921660, 834679800, 834433900, 834189400,
  833943550, 833696660, 833449240, 833202000, 832956500, 832710900, 832466000, 832221000, 831978900,
  831739540, 831499040, 831261700, 831028100, 830794160, 830565750, 830339700, 830116330, 829895440,
  829680000, 829465700, 829257600, 829053160, 828852800, 828658000, 828467670, 828281100, 828101900, 827925800]
/-- bl_rect.rs:2178-2241 -/
def blRectChunk34 : List Nat := [
  827755870, 827591360, 827434240, 827281000, 827136000, 826995900, 826862500, 826734660, 826614300,
  826501700, 826394600, 826294000, 826201800, 826116400, 826037940, 825965800, 825902300, 825846100,
  825796200, 825754600, 825720500, 825694400, 825674240, 825664460, 825661500, 825665060, 825676140,
  825695750, 825720850, 825754600, 825796800, 825845300, 825900550, 825964150, 826035300, 826112800,
  826198160, 826289830, 826388240, 826492370, 826605440, 826724200, 826849940, 826980650, 827117300,
  827259900, 827410160, 827566740, 827725700, 827891200, 828064300, 828240700, 828420900, 828605200,
  828796000, 828990640, 829190700, 829392500, 829598500, 829809250, 830022100, 830238760, 830455240, 830679000]
/-- bl_rect.rs:2242-2305 -/
def blRectChunk35 : List Nat := [
  830903050, 831130200, 831357060, 831588750, 831818700, 832051750, 832286500, 832519950, 832756300,
  832990400, 833228350, 833463670, 833699200, 833933700, 834167700, 834400360, 834631900, 834862230,
  835090460, 835317100, 835542400, 835763500, 835982560, 836199700, 836412970, 836622830, 836831600,
  837034640, 837233070, 837428400, 837619700, 837808670, 837989030, 838165500, 838338850, 838506200,
  838668000, 838824800, 838977000, 839121500, 839261800, 839397850, 839523550, 839644550, 839759470,
  839869500, 839969640, 840066400, 840154800, 840237800, 840311470, 840379360, 840442400, 840495770,
  840543500, 840582000, 840614800, 840640100, 840657350, 840668400, 840671900, 840668900, 840658000, 840641200]
/-- bl_rect.rs:2306-2369 -/
def blRectChunk36 : List Nat := [
  840615030, 840582400, 840542500, 840496100, 840442700, 840383300, 840313850, 840240400, 840158200,
  840070700, 839976850, 839874570, 839768470, 839656500, 839536370, 839410250, 839277150, 839141600,
  838998260, 838850140, 838696360, 838537450, 838373840, 838204600, 838032960, 837853300, 837671800,
  837485300, 837295300, 837102000, 836904400, 836702940, 836499450, 836292200, 836082700, 835870000,
  835657000, 835439400, 835222300, 835001000, 834778130, 834554800, 834331630, 834107100, 833881260,
  833655060, 833430100, 833204300, 832980000, 832755740, 832531600, 832306860, 832085300, 831865970,
  831646000, 831428950, 831213060, 831002530, 830792000, 830583930, 830380300, 830177700, 829978500, 829785100]
/-- bl_rect.rs:2370-2433 -/
def blRectChunk37 : List Nat := [
  829595000, 829407040, 829225060, 829045800, 828870530, 828700200, 828534000, 828373400, 828218500,
  828067360, 827923950, 827784700, 827651200, 827522160, 827400450, 827284040, 827173600, 827070500,
  826971700, 826879400, 826795640, 826717850, 826644500, 826578300, 826521300, 826468470, 826424200,
  826386330, 826355040, 826330800, 826312840, 826304140, 826298300, 826301800, 826313260, 826331500,
  826354200, 826386400, 826424900, 826468050, 826521750, 826578500, 826643000, 826714300, 826791640,
  826875570, 826965200, 827062100, 827165800, 827275000, 827390130, 827508800, 827636540, 827767130,
  827904800, 828045600, 828193300, 828346900, 828503800, 828665600, 828831430, 829001800, 829177500, 829355500]
/-- bl_rect.rs:2434-2497 -/
def blRectChunk38 : List Nat := [
  829537150, 829722700, 829913560, 830105300, 830299700, 830499650, 830700460, 830904400, 831109100,
  831318700, 831527950, 831739700, 831950370, 832164050, 832377140, 832594160, 832810800, 833027400,
  833243970, 833460800, 833677300, 833892100, 834106450, 834320840, 834533500, 834746060, 834955600,
  835163700, 835368300, 835574870, 835775550, 835974040, 836170900, 836364270, 836554300, 836739600,
  836923100, 837103960, 837280040, 837451700, 837618900, 837782500, 837941100, 838094950, 838243070,
  838385940, 838527000, 838660960, 838788400, 838911830, 839029500, 839139500, 839246450, 839347840,
  839441000, 839528300, 839609200, 839685000, 839754800, 839816000, 839873250, 839923700, 839965460, 840002900]
/-- bl_rect.rs:2498-2561 -/
def blRectChunk39 : List Nat := [
  840031500, 840055940, 840072930, 840082760, 840085300, 840081800, 840073200, 840056840, 840030550,
  840005400, 839966800, 839924400, 839873900, 839818840, 839756370, 839687050, 839611770, 839532100,
  839446300, 839352600, 839254100, 839150850, 839038300, 838923800, 838803050, 838676700, 838544130,
  838407160, 838267860, 838121200, 837969800, 837813560, 837655800, 837490600, 837323000, 837152600,
  836976400, 836798100, 836615700, 836429060, 836243570, 836051100, 835859200, 835664330, 835465970,
  835267840, 835065070, 834862800, 834658300, 834452570, 834245860, 834040460, 833832140, 833623300,
  833415750, 833208000, 833000100, 832792600, 832585500, 832381600, 832177000, 831972700, 831771400, 831572400]
/-- bl_rect.rs:2562-2625 -/
def blRectChunk40 : List Nat := [
  831372740, 831178300, 830983400, 830792370, 830604600, 830420000, 830235700, 830055240, 829880950,
  829706000, 829538700, 829373000, 829211400, 829055700, 828904450, 828755700, 828610500, 828472500,
  828340230, 828211370, 828086260, 827968660, 827857400, 827748540, 827647000, 827552700, 827461400,
  827375700, 827296800, 827226400, 827158900, 827098900, 827045100, 826996560, 826956150, 826920200,
  826890300, 826869200, 826852860, 826843200, 826840000, 826841950, 826852440, 826869100, 826891960,
  826921700, 826955850, 826996800, 827044550, 827098550, 827157140, 827222000, 827295840, 827372900,
  827458140, 827547200, 827640060, 827739800, 827846300, 827957330, 828073900, 828196350, 828323100, 828454400]
/-- bl_rect.rs:2626-2689 -/
def blRectChunk41 : List Nat := [
  828589860, 828730300, 828875240, 829024600, 829178200, 829337100, 829496600, 829662440, 829831660,
  830004160, 830178200, 830355700, 830536200, 830718900, 830907170, 831093550, 831284460, 831476300,
  831668600, 831864950, 832061770, 832259000, 832458140, 832657400, 832857850, 833056450, 833257560,
  833456800, 833656000, 833856000, 834054400, 834255100, 834450540, 834645030, 834838400, 835031450,
  835221650, 835411800, 835597600, 835782050, 835963370, 836140900, 836317700, 836491200, 836660270,
  836827200, 836987800, 837147950, 837301700, 837453900, 837598150, 837742100, 837881100, 838013770,
  838142630, 838265900, 838386540, 838499900, 838608150, 838711700, 838810400, 838902240, 838988900, 839069400]
/-- bl_rect.rs:2690-2753 -/
def blRectChunk42 : List Nat := [
  839144770, 839214700, 839278160, 839336160, 839388670, 839434700, 839474100, 839509200, 839535360,
  839560200, 839574460, 839583500, 839586500, 839582700, 839573440, 839558600, 839537200, 839508400,
  839475100, 839436350, 839390000, 839340030, 839279530, 839217700, 839149240, 839073800, 838993100,
  838907060, 838815900, 838719370, 838617100, 838510630, 838398460, 838280260, 838157100, 838030460,
  837901350, 837766230, 837624130, 837482330, 837332670, 837181700, 837026600, 836867330, 836705740,
  836538850, 836370770, 836200240, 836026430, 835847400, 835669040, 835487400, 835306100, 835120300,
  834934600, 834745300, 834554850, 834364350, 834175500, 833982650, 833789600, 833597200, 833405000, 833210200]
/-- bl_rect.rs:2754-2817 -/
def blRectChunk43 : List Nat := [
  833018540, 832827030, 832635160, 832444670, 832255200, 832066060, 831878700, 831693500, 831509500,
  831329460, 831147850, 830971300, 830795100, 830625500, 830454230, 830288350, 830123700, 829965300,
  829807000, 829654700, 829503700, 829358800, 829218600, 829080340, 828948140, 828817900, 828695600,
  828574600, 828460500, 828350960, 828247130, 828147400, 828051570, 827964840, 827881000, 827800600,
  827728900, 827659400, 827598400, 827544100, 827493670, 827449200, 827410760, 827378700, 827351300,
  827331070, 827316200, 827307300, 827304300, 827306500, 827316940, 827331100, 827351800, 827377800,
  827410700, 827447350, 827493300, 827542400, 827597400, 827659200, 827725600, 827797530, 827876450, 827960100]
/-- bl_rect.rs:2818-2881 -/
def blRectChunk44 : List Nat := [
  828048300, 828140560, 828238800, 828341600, 828450500, 828562800, 828680200, 828802200, 828930400,
  829059840, 829194900, 829334860, 829476900, 829622270, 829771700, 829927860, 830083250, 830242100,
  830404700, 830569900, 830738540, 830908800, 831081200, 831256500, 831433400, 831608950, 831790270,
  831974150, 832155470, 832338040, 832525200, 832709800, 832895300, 833081540, 833267800, 833454970,
  833640640, 833823600, 834010000, 834192500, 834377200, 834557950, 834739300, 834919040, 835095600,
  835268860, 835444030, 835616500, 835782600, 835949500, 836116140, 836274600, 836431800, 836586600,
  836738170, 836884900, 837030230, 837169600, 837306900, 837438000, 837569500, 837689700, 837811200, 837926200]
/-- bl_rect.rs:2882-2945 -/
def blRectChunk45 : List Nat := [
  838037600, 838143350, 838244560, 838341060, 838432200, 838517200, 838598900, 838673650, 838744340,
  838809670, 838867660, 838923300, 838970960, 839013760, 839052100, 839084150, 839108600, 839129450,
  839141850, 839153500, 839155700, 839151300, 839143500, 839128600, 839110000, 839082840, 839051400,
  839015700, 838972400, 838924300, 838870640, 838811900, 838746300, 838677940, 838601650, 838522140,
  838437860, 838348270, 838255350, 838152400, 838048340, 837939100, 837823800, 837708060, 837586340,
  837458670, 837329270, 837197500, 837056800, 836915550, 836770900, 836622700, 836472000, 836316940,
  836158340, 836000740, 835838900, 835673400, 835507200, 835337300, 835166600, 834994800, 834819800, 834645450]
/-- bl_rect.rs:2946-3009 -/
def blRectChunk46 : List Nat := [
  834468200, 834292700, 834113060, 833934300, 833753470, 833575200, 833395060, 833215950, 833036000,
  832857130, 832678440, 832500930, 832324150, 832148970, 831973700, 831801300, 831627900, 831460540,
  831290660, 831126750, 830964500, 830801500, 830643700, 830489200, 830337600, 830188000, 830042300,
  829898540, 829759600, 829623460, 829492870, 829364300, 829239670, 829119600, 829002260, 828892500,
  828787400, 828682840, 828585150, 828494250, 828405440, 828320800, 828241600, 828170960, 828102470,
  828039650, 827982000, 827929500, 827883200, 827841640, 827805340, 827773870, 827750700, 827728800,
  827716100, 827708900, 827706300, 827707200, 827716230, 827730830, 827750100, 827775240, 827802840, 827840300]
/-- bl_rect.rs:3010-3073 -/
def blRectChunk47 : List Nat := [
  827881600, 827929100, 827980800, 828036960, 828100440, 828168200, 828238300, 828317400, 828399600,
  828486700, 828579550, 828674850, 828774870, 828879950, 828991000, 829104840, 829223600, 829344750,
  829471200, 829599260, 829732900, 829871700, 830009160, 830154400, 830300000, 830449000, 830600740,
  830755950, 830914260, 831072570, 831232960, 831395270, 831561270, 831728340, 831897560, 832067000,
  832237700, 832407700, 832580800, 832752800, 832928400, 833102760, 833276300, 833449800, 833624400,
  833794360, 833969830, 834141700, 834313600, 834482250, 834650640, 834818100, 834983800, 835147900,
  835308600, 835470400, 835626900, 835783400, 835936100, 836085740, 836233440, 836378900, 836520550, 836657350]
/-- bl_rect.rs:3074-3137 -/
def blRectChunk48 : List Nat := [
  836791800, 836924600, 837050740, 837174240, 837296100, 837411400, 837524240, 837631500, 837735650,
  837832030, 837928600, 838018660, 838103200, 838184400, 838259940, 838330100, 838394900, 838457350,
  838512540, 838562370, 838608150, 838648900, 838682600, 838713600, 838738000, 838755250, 838768600,
  838776500, 838778900, 838778000, 838767900, 838756200, 838736400, 838712750, 838682600, 838647840,
  838609340, 838563140, 838513800, 838458900, 838398930, 838331940, 838263700, 838189700, 838108600,
  838023400, 837937200, 837841200, 837744600, 837642970, 837534960, 837425100, 837310550, 837190400,
  837069870, 836943600, 836815500, 836683300, 836548900, 836409500, 836267530, 836123400, 835976840, 835828070]
/-- bl_rect.rs:3138-3201 -/
def blRectChunk49 : List Nat := [
  835675540, 835519730, 835363570, 835207700, 835047500, 834885540, 834721600, 834558960, 834392850,
  834226700, 834059600, 833894400, 833726200, 833555100, 833388300, 833219200, 833049500, 832882760,
  832716100, 832548860, 832382900, 832218300, 832057200, 831894000, 831732450, 831574260, 831416300,
  831262470, 831111400, 830958300, 830812160, 830666240, 830521800, 830383240, 830245730, 830111560,
  829981700, 829854500, 829731760, 829611000, 829493300, 829384150, 829272500, 829168260, 829069900,
  828971700, 828882900, 828793600, 828712460, 828633960, 828560230, 828491870, 828428570, 828371350,
  828316000, 828267750, 828223200, 828183900, 828150500, 828122700, 828098400, 828081130, 828067600, 828060600]
/-- bl_rect.rs:3202-3265 -/
def blRectChunk50 : List Nat := [
  828055200, 828060600, 828070040, 828080500, 828098540, 828121100, 828150600, 828183950, 828223170,
  828265960, 828314700, 828367800, 828428270, 828490300, 828558100, 828631100, 828708200, 828789800,
  828877150, 828965000, 829060550, 829159700, 829264500, 829371040, 829481500, 829596600, 829712100,
  829834200, 829958000, 830086700, 830219400, 830353560, 830490300, 830630600, 830773100, 830917900,
  831065900, 831215260, 831367900, 831519500, 831675950, 831831100, 831987200, 832147900, 832309070,
  832469460, 832632000, 832791750, 832958300, 833120300, 833283600, 833446200, 833607300, 833770600,
  833932700, 834094940, 834255400, 834415560, 834574340, 834728660, 834883450, 835038300, 835190700, 835341800]
/-- bl_rect.rs:3266-3329 -/
def blRectChunk51 : List Nat := [
  835490050, 835637150, 835780600, 835919600, 836058300, 836194750, 836329160, 836458270, 836583730,
  836708000, 836827640, 836941600, 837055560, 837165360, 837269500, 837372200, 837468000, 837562200,
  837651700, 837733900, 837813850, 837891940, 837961140, 838029440, 838090060, 838144840, 838198700,
  838247000, 838290750, 838326500, 838359530, 838386500, 838410850, 838427070, 838440100, 838448460,
  838449840, 838447900, 838438630, 838428140, 838410100, 838384100, 838358940, 838326800, 838292300,
  838247500, 838200300, 838148000, 838089940, 838028500, 837963100, 837894400, 837819900, 837739200,
  837657000, 837568640, 837476730, 837380300, 837280700, 837178300, 837068800, 836958200, 836843800, 836726800]
/-- bl_rect.rs:3330-3393 -/
def blRectChunk52 : List Nat := [
  836605300, 836481450, 836353240, 836223240, 836088360, 835955100, 835814300, 835675500, 835532550,
  835388700, 835241730, 835092070, 834941150, 834790200, 834635800, 834482670, 834326570, 834172700,
  834013200, 833855600, 833699460, 833539660, 833380500, 833221400, 833063400, 832908100, 832748800,
  832593500, 832438400, 832282250, 832129700, 831976650, 831826400, 831675470, 831528600, 831384200,
  831240240, 831097070, 830957900, 830822500, 830688100, 830555860, 830427170, 830300900, 830178440,
  830060500, 829941700, 829827850, 829718770, 829615300, 829511100, 829414100, 829320600, 829230800,
  829142330, 829061900, 828986000, 828911700, 828842460, 828777900, 828716800, 828661800, 828611200, 828564760]
/-- bl_rect.rs:3394-3457 -/
def blRectChunk53 : List Nat := [
  828523460, 828486860, 828455000, 828428000, 828407350, 828389170, 828376500, 828369800, 828365800,
  828370300, 828378900, 828389760, 828406300, 828429040, 828454260, 828487040, 828522900, 828566130,
  828609300, 828661100, 828717770, 828775350, 828837340, 828905760, 828979250, 829058000, 829135700,
  829221500, 829313460, 829404530, 829503200, 829602240, 829707900, 829814700, 829929350, 830041000,
  830158500, 830279350, 830405060, 830530350, 830660160, 830790700, 830924300, 831061360, 831201200,
  831340800, 831482050, 831628200, 831772200, 831919300, 832067800, 832219200, 832369570, 832520840,
  832673200, 832828600, 832979260, 833134300, 833286900, 833443640, 833595040, 833748900, 833902060, 834051250]
/-- bl_rect.rs:3458-3521 -/
def blRectChunk54 : List Nat := [
  834205400, 834355300, 834504800, 834652400, 834798340, 834943530, 835089200, 835226060, 835367200,
  835505800, 835639900, 835775600, 835904500, 836032570, 836157900, 836279400, 836401100, 836516260,
  836626900, 836737700, 836843130, 836947100, 837045400, 837142170, 837232700, 837320860, 837402200,
  837483300, 837560060, 837629800, 837695400, 837759300, 837817700, 837871430, 837919060, 837966700,
  838006400, 838042200, 838071900, 838097400, 838120340, 838136850, 838150300, 838154700, 838159200,
  838155030, 838148060, 838136260, 838116800, 838097400, 838070150, 838041840, 838006850, 837967400,
  837922200, 837873340, 837820770, 837762830, 837699950, 837632830, 837562260, 837487000, 837406750, 837326600]
/-- bl_rect.rs:3522-3585 -/
def blRectChunk55 : List Nat := [
  837238670, 837149700, 837053660, 836959100, 836854460, 836748540, 836642150, 836532200, 836416070,
  836300250, 836179850, 836058000, 835930300, 835803500, 835671400, 835539340, 835404000, 835269400,
  835130160, 834989900, 834849000, 834704340, 834559500, 834415100, 834265400, 834122060, 833970840,
  833823300, 833674970, 833523450, 833374600, 833227000, 833077200, 832928800, 832780660, 832632800,
  832485140, 832337260, 832195040, 832050740, 831908460, 831765800, 831629700, 831489100, 831355100,
  831218960, 831088840, 830959100, 830831400, 830707600, 830588400, 830467200, 830352000, 830240000,
  830130300, 830024240, 829920200, 829820750, 829723830, 829630800, 829541800, 829457340, 829376900, 829299600]
/-- bl_rect.rs:3586-3649 -/
def blRectChunk56 : List Nat := [
  829225600, 829153840, 829090200, 829030700, 828972000, 828919800, 828871670, 828831000, 828791440,
  828755100, 828726400, 828701140, 828680160, 828663350, 828653000, 828643500, 828644700, 828645050,
  828651300, 828662400, 828679740, 828701500, 828725300, 828757800, 828789230, 828829170, 828873200,
  828920070, 828972600, 829027350, 829089050, 829153000, 829221600, 829294440, 829371000, 829451440,
  829536740, 829620900, 829714100, 829809700, 829909560, 830013400, 830115140, 830225900, 830335800,
  830450000, 830566900, 830686700, 830807570, 830931540, 831061660, 831189000, 831319000, 831451100,
  831586800, 831724000, 831861600, 831999660, 832142200, 832281950, 832424200, 832568050, 832712600, 832858000]
/-- bl_rect.rs:3650-3713 -/
def blRectChunk57 : List Nat := [
  833001260, 833149000, 833294300, 833436000, 833582760, 833726600, 833871960, 834015900, 834158000,
  834300400, 834442440, 834582300, 834721740, 834860440, 834992050, 835128960, 835260330, 835389000,
  835517640, 835642000, 835767300, 835886000, 836004700, 836119060, 836234750, 836342200, 836450900,
  836554300, 836653800, 836751700, 836845000, 836933430, 837022400, 837104800, 837182940, 837259400,
  837328730, 837397300, 837460400, 837520540, 837575000, 837623500, 837673070, 837716640, 837752940,
  837785900, 837816540, 837839660, 837862900, 837876000, 837887700, 837894200, 837895500, 837891900,
  837888700, 837874050, 837862200, 837841450, 837817600, 837787200, 837752900, 837716460, 837674140, 837627400]
/-- bl_rect.rs:3714-3777 -/
def blRectChunk58 : List Nat := [
  837578360, 837522900, 837464450, 837401570, 837333100, 837262900, 837188400, 837110760, 837027800,
  836942000, 836851700, 836761530, 836666300, 836565900, 836464200, 836358300, 836248930, 836138840,
  836027100, 835908700, 835790300, 835669640, 835545800, 835418200, 835293650, 835164370, 835032460,
  834898600, 834764840, 834629600, 834493340, 834354800, 834215700, 834077100, 833935800, 833796440,
  833653150, 833512540, 833371700, 833232100, 833089300, 832948800, 832807840, 832668840, 832527900,
  832390500, 832253500, 832116370, 831983570, 831846500, 831717670, 831585000, 831457850, 831329600,
  831205900, 831084100, 830963130, 830847860, 830731400, 830619160, 830509840, 830399630, 830299140, 830197040]
/-- bl_rect.rs:3778-3841 -/
def blRectChunk59 : List Nat := [
  830099340, 830004500, 829912960, 829825300, 829740940, 829661670, 829583760, 829510750, 829440800,
  829376160, 829313800, 829256000, 829201760, 829152460, 829108240, 829066160, 829030040, 828994750,
  828968940, 828944560, 828925500, 828909900, 828898200, 828893400, 828889700, 828891800, 828897830,
  828911100, 828924060, 828943670, 828967700, 828997250, 829031900, 829067200, 829106900, 829151300,
  829200400, 829253140, 829312900, 829374550, 829438600, 829507900, 829579060, 829656300, 829735700,
  829819440, 829905300, 829996200, 830089700, 830186670, 830285900, 830388840, 830491840, 830601900,
  830711360, 830826940, 830940700, 831058860, 831179100, 831301870, 831426300, 831551550, 831681000, 831809600]
/-- bl_rect.rs:3842-3905 -/
def blRectChunk60 : List Nat := [
  831939640, 832071360, 832205650, 832338300, 832474100, 832609900, 832747600, 832882600, 833021940,
  833159000, 833297700, 833435500, 833571730, 833709000, 833848600, 833981600, 834115740, 834253130,
  834385200, 834520040, 834651350, 834781000, 834908960, 835035440, 835161200, 835285100, 835407260,
  835525040, 835640500, 835756700, 835868300, 835978000, 836083800, 836188400, 836293500, 836389300,
  836485270, 836574440, 836664860, 836752000, 836831870, 836912700, 836987000, 837056500, 837127400,
  837191400, 837250900, 837305800, 837358300, 837406750, 837450500, 837490800, 837528470, 837557500,
  837584260, 837610000, 837628400, 837642600, 837655200, 837660550, 837662460, 837661300, 837653760, 837642850]
/-- bl_rect.rs:3906-3969 -/
def blRectChunk61 : List Nat := [
  837628600, 837610840, 837585300, 837559500, 837526860, 837490700, 837452100, 837406800, 837358240,
  837306260, 837250800, 837192100, 837129100, 837061400, 836990650, 836916500, 836839440, 836757660,
  836672660, 836584150, 836494800, 836399600, 836302040, 836202560, 836100300, 835996000, 835887250,
  835776570, 835663700, 835548800, 835431900, 835312550, 835191200, 835070000, 834944550, 834817500,
  834689200, 834561500, 834432900, 834302000, 834169300, 834036770, 833903430, 833769800, 833636100,
  833502350, 833368300, 833234000, 833098600, 832964100, 832832160, 832698350, 832567900, 832436560,
  832306300, 832177040, 832049130, 831922000, 831795800, 831672430, 831550000, 831430700, 831312060, 831195060]
/-- bl_rect.rs:3970-4033 -/
def blRectChunk62 : List Nat := [
  831082400, 830970300, 830860730, 830752550, 830649800, 830548760, 830450000, 830353740, 830261770,
  830171170, 830084560, 830001060, 829921200, 829844000, 829770900, 829701000, 829636040, 829573800,
  829515900, 829459670, 829408300, 829361400, 829318900, 829280000, 829243500, 829212800, 829187000,
  829163970, 829145700, 829131300, 829119500, 829114140, 829113000, 829113600, 829121200, 829131700,
  829145970, 829163400, 829186740, 829213600, 829244550, 829279700, 829318500, 829361440, 829408470,
  829458650, 829511700, 829571300, 829633650, 829698000, 829767400, 829840660, 829914800, 829995000,
  830076930, 830163200, 830251930, 830343700, 830438260, 830534900, 830635550, 830738250, 830844400, 830950800]
/-- bl_rect.rs:4034-4097 -/
def blRectChunk63 : List Nat := [
  831060900, 831174250, 831287260, 831403850, 831521600, 831642570, 831762250, 831887250, 832012000,
  832135000, 832264200, 832391740, 832518640, 832648340, 832778160, 832907740, 833038400, 833168600,
  833299900, 833430770, 833561900, 833693270, 833823100, 833952900, 834081770, 834209740, 834336800,
  834463300, 834586860, 834711600, 834833600, 834953370, 835072600, 835190240, 835305600, 835417800,
  835530460, 835638760, 835745930, 835850000, 835951570, 836050000, 836146350, 836239760, 836330400,
  836418000, 836503450, 836583800, 836662000, 836736200, 836808700, 836878200, 836941240, 837002100,
  837059800, 837111650, 837161540, 837207700, 837249500, 837287800, 837322300, 837352800, 837379000, 837401330]
/-- bl_rect.rs:4098-4161 -/
def blRectChunk64 : List Nat := [
  837419750, 837433340, 837443700, 837450740, 837452400, 837450270, 837443000, 837432560, 837418740,
  837402200, 837378740, 837351800, 837323700, 837287250, 837251370, 837209000, 837162700, 837113800,
  837061300, 837004500, 836943800, 836880450, 836811800, 836741500, 836667700, 836589930, 836509350,
  836426440, 836340100, 836249400, 836158000, 836063400, 835964200, 835864660, 835761960, 835655500,
  835549200, 835440600, 835329230, 835215600, 835100530, 834983650, 834864740, 834743500, 834623000,
  834500800, 834379200, 834252240, 834127960, 834001840, 833874170, 833747450, 833619500, 833493350,
  833364700, 833237200, 833108700, 832980930, 832855600, 832729040, 832603200, 832478500, 832353500, 832231160]
/-- bl_rect.rs:4162-4225 -/
def blRectChunk65 : List Nat := [
  832107000, 831988200, 831869000, 831750900, 831635060, 831521500, 831407900, 831296150, 831189630,
  831080560, 830977400, 830877700, 830777940, 830680000, 830586700, 830495060, 830406600, 830321900,
  830239500, 830160140, 830083800, 830010100, 829939840, 829874750, 829811000, 829752200, 829696400,
  829644700, 829594850, 829552230, 829509700, 829472800, 829439600, 829410100, 829383500, 829361800,
  829344330, 829329600, 829320200, 829315540, 829312900, 829314700, 829320850, 829329400, 829344400,
  829361800, 829383300, 829408650, 829438200, 829471470, 829509400, 829549970, 829595270, 829643550,
  829693440, 829750060, 829808500, 829871100, 829937200, 830006960, 830077770, 830155250, 830232560, 830315100]
/-- bl_rect.rs:4226-4289 -/
def blRectChunk66 : List Nat := [
  830398700, 830485050, 830576200, 830670540, 830764230, 830862500, 830962700, 831064640, 831169500,
  831276100, 831385500, 831497130, 831609200, 831722560, 831838200, 831955430, 832074100, 832193500,
  832314130, 832436300, 832557740, 832681800, 832805630, 832929300, 833054100, 833179200, 833303630,
  833427850, 833553000, 833677500, 833800500, 833925070, 834047400, 834168900, 834291340, 834410550,
  834530530, 834647360, 834764600, 834878860, 834993060, 835104600, 835215700, 835322400, 835427500,
  835532300, 835634200, 835733900, 835830150, 835923850, 836015800, 836105100, 836191400, 836275300,
  836355870, 836433050, 836507900, 836577900, 836647400, 836711760, 836772900, 836831030, 836886100, 836936830]
/-- bl_rect.rs:4290-4353 -/
def blRectChunk67 : List Nat := [
  836984750, 837027800, 837068560, 837105000, 837136900, 837163500, 837190800, 837211500, 837229700,
  837242400, 837252440, 837259530, 837260540, 837257700, 837252700, 837241500, 837229100, 837212200,
  837190330, 837166200, 837136500, 837104860, 837068500, 837028260, 836984460, 836937000, 836887800,
  836834100, 836775360, 836715000, 836650550, 836583200, 836512200, 836438800, 836363300, 836281600,
  836199050, 836113450, 836027440, 835935600, 835841830, 835747500, 835651160, 835549000, 835447500,
  835341160, 835235200, 835127950, 835017500, 834905500, 834792440, 834678200, 834562540, 834446200,
  834328530, 834210200, 834090230, 833969060, 833847800, 833727900, 833605470, 833484100, 833361270, 833240300]
/-- bl_rect.rs:4354-4417 -/
def blRectChunk68 : List Nat := [
  833118500, 832995500, 832875000, 832753960, 832634150, 832515660, 832396270, 832279260, 832163400,
  832047940, 831934600, 831822400, 831711350, 831602040, 831495300, 831389900, 831285900, 831184200,
  831086160, 830986600, 830892800, 830800400, 830710500, 830624340, 830540700, 830458760, 830379500,
  830303000, 830230200, 830162400, 830095000, 830032170, 829971800, 829915400, 829862500, 829813100,
  829764960, 829722640, 829684560, 829648140, 829616960, 829587040, 829563100, 829543000, 829525500,
  829510200, 829504500, 829496860, 829494900, 829497200, 829502100, 829512900, 829526600, 829543530,
  829562840, 829588000, 829616800, 829647400, 829682950, 829720800, 829764840, 829811500, 829860200, 829912000]
/-- bl_rect.rs:4418-4481 -/
def blRectChunk69 : List Nat := [
  829968400, 830029960, 830091360, 830158350, 830225940, 830298960, 830373940, 830450700, 830531240,
  830614750, 830700040, 830790940, 830882850, 830975000, 831070700, 831167640, 831269600, 831370100,
  831475000, 831580040, 831686900, 831797540, 831908760, 832019100, 832131200, 832246800, 832361800,
  832479200, 832594040, 832713300, 832830000, 832949760, 833066200, 833185850, 833306130, 833424800,
  833543540, 833662800, 833782300, 833898960, 834017630, 834134600, 834246900, 834363900, 834477370,
  834589100, 834702730, 834811700, 834919150, 835026260, 835131900, 835235200, 835335700, 835433400,
  835532550, 835627400, 835719170, 835809230, 835896900, 835984400, 836064800, 836143850, 836221400, 836295200]
/-- bl_rect.rs:4482-4545 -/
def blRectChunk70 : List Nat := [
  836367500, 836433900, 836498900, 836560400, 836620450, 836675700, 836728630, 836777300, 836822330,
  836863800, 836900800, 836937000, 836968200, 836995400, 837019400, 837040250, 837058250, 837069000,
  837078600, 837083940, 837086000, 837084800, 837077560, 837070050, 837056000, 837039400, 837019740,
  836996440, 836967600, 836936650, 836901900, 836864900, 836822300, 836778000, 836728400, 836677970,
  836624200, 836563700, 836502000, 836438360, 836370940, 836300250, 836227400, 836151200, 836071670,
  835990900, 835906740, 835820800, 835730430, 835639700, 835545540, 835449000, 835352200, 835251330,
  835149600, 835047500, 834941450, 834835470, 834726500, 834618570, 834507900, 834395300, 834282160, 834170300]
/-- bl_rect.rs:4546-4609 -/
def blRectChunk71 : List Nat := [
  834054700, 833940100, 833825050, 833709300, 833592800, 833476960, 833359800, 833241200, 833126370,
  833009840, 832893550, 832780060, 832663660, 832551000, 832437000, 832325000, 832212900, 832104150,
  831993040, 831887300, 831781150, 831675800, 831574600, 831472640, 831373930, 831277500, 831181800,
  831088500, 830998400, 830910800, 830824200, 830741170, 830661060, 830582200, 830507800, 830435200,
  830364940, 830299200, 830235100, 830173700, 830117500, 830064360, 830012000, 829964640, 829921500,
  829879500, 829841600, 829808800, 829778500, 829751700, 829726460, 829705500, 829691200, 829678400,
  829669700, 829663040, 829661250, 829663100, 829669600, 829677100, 829692240, 829708040, 829727350, 829750840]
/-- bl_rect.rs:4610-4673 -/
def blRectChunk72 : List Nat := [
  829777360, 829807600, 829842000, 829879500, 829919760, 829963450, 830010650, 830061850, 830115500,
  830172900, 830232100, 830295440, 830363100, 830430570, 830502330, 830576100, 830654300, 830733660,
  830816500, 830899900, 830988300, 831076500, 831167900, 831263500, 831359570, 831456100, 831555370,
  831657650, 831759200, 831864660, 831970400, 832076130, 832184260, 832293870, 832404430, 832516500,
  832627400, 832739900, 832851900, 832966600, 833079100, 833194430, 833310250, 833422360, 833536000,
  833649900, 833763500, 833876800, 833988250, 834100540, 834211200, 834320500, 834429700, 834537570,
  834643660, 834749200, 834852900, 834953550, 835053860, 835153800, 835250740, 835346040, 835439100, 835530800]
/-- bl_rect.rs:4674-4737 -/
def blRectChunk73 : List Nat := [
  835618300, 835704600, 835788970, 835870600, 835947500, 836025000, 836098430, 836169660, 836236660,
  836302340, 836364300, 836423900, 836479250, 836533250, 836584300, 836629500, 836673740, 836713300,
  836750100, 836783100, 836813150, 836839700, 836863700, 836880800, 836898500, 836911100, 836919070,
  836923900, 836926940, 836924800, 836919500, 836910300, 836899040, 836881640, 836862860, 836839850,
  836813800, 836783600, 836750860, 836713700, 836675000, 836632130, 836584900, 836534600, 836483000,
  836427450, 836367100, 836306630, 836240530, 836173650, 836104400, 836031730, 835955140, 835877100,
  835796830, 835714300, 835627000, 835540060, 835450350, 835359450, 835265760, 835168960, 835073950, 834973400]
/-- bl_rect.rs:4738-4801 -/
def blRectChunk74 : List Nat := [
  834872500, 834769600, 834665950, 834563600, 834457200, 834349930, 834240900, 834133400, 834023650,
  833913100, 833802340, 833691400, 833580300, 833469150, 833356860, 833246100, 833134500, 833021300,
  832910900, 832800400, 832690900, 832582100, 832474230, 832366100, 832259650, 832154870, 832050400,
  831948300, 831845160, 831745560, 831647500, 831551400, 831455400, 831362660, 831272360, 831182900,
  831094800, 831011800, 830929460, 830848500, 830771860, 830698400, 830626100, 830555000, 830489400,
  830425440, 830363400, 830306050, 830251800, 830200100, 830150370, 830105250, 830062450, 830023400,
  829986330, 829955040, 829925800, 829899800, 829878800, 829858400, 829844200, 829830700, 829823200, 829817600]
/-- bl_rect.rs:4802-4865 -/
def blRectChunk75 : List Nat := [
  829814900, 829815570, 829822100, 829831000, 829842030, 829859260, 829878100, 829900600, 829925300,
  829954400, 829987050, 830023900, 830060800, 830105070, 830149200, 830197630, 830249500, 830302800,
  830361600, 830423200, 830484900, 830553230, 830621060, 830691500, 830764600, 830841660, 830921300,
  831002060, 831086460, 831172500, 831260400, 831349300, 831441760, 831535040, 831629300, 831726900,
  831824900, 831925400, 832028700, 832128500, 832232200, 832338870, 832443800, 832551360, 832656900,
  832765100, 832873640, 832982360, 833091740, 833202060, 833310070, 833419800, 833529530, 833638700,
  833746250, 833855030, 833962500, 834069970, 834177100, 834280600, 834384860, 834488450, 834590400, 834692300]
/-- bl_rect.rs:4866-4929 -/
def blRectChunk76 : List Nat := [
  834790100, 834888460, 834986600, 835080150, 835173370, 835264300, 835353800, 835440160, 835525000,
  835607350, 835688950, 835766730, 835842850, 835915700, 835987030, 836053430, 836119830, 836182800,
  836241100, 836298760, 836352770, 836401640, 836450500, 836495000, 836536770, 836575270, 836609400,
  836642860, 836670760, 836696400, 836719500, 836736140, 836752300, 836764750, 836772100, 836777700,
  836779000, 836777700, 836773900, 836762850, 836751800, 836738170, 836719040, 836698000, 836671200,
  836642400, 836610900, 836576640, 836539400, 836496500, 836451900, 836404500, 836354000, 836300130,
  836244400, 836184260, 836122930, 836058560, 835990500, 835921170, 835849600, 835773770, 835696940, 835615750]
/-- bl_rect.rs:4930-4993 -/
def blRectChunk77 : List Nat := [
  835533800, 835450770, 835365240, 835276300, 835185800, 835095400, 835000700, 834905860, 834809900,
  834711250, 834612370, 834513400, 834410400, 834308200, 834204730, 834101100, 833994900, 833888700,
  833783200, 833676340, 833568300, 833462400, 833355000, 833250160, 833142600, 833035800, 832927470,
  832821700, 832715300, 832611560, 832508740, 832405030, 832303050, 832200400, 832101300, 832002200,
  831904000, 831808270, 831715000, 831622060, 831529500, 831442600, 831353800, 831267360, 831185400,
  831103440, 831025600, 830948500, 830873700, 830803200, 830734250, 830665900, 830602800, 830541600,
  830483260, 830426340, 830374240, 830325300, 830277800, 830233630, 830192900, 830156400, 830120860, 830090340]
/-- bl_rect.rs:4994-5057 -/
def blRectChunk78 : List Nat := [
  830063300, 830037900, 830014500, 829998400, 829982500, 829970400, 829962800, 829957370, 829957070,
  829956800, 829962800, 829971700, 829982400, 829997300, 830014100, 830037830, 830062100, 830091900,
  830120400, 830156270, 830192150, 830233750, 830277300, 830323300, 830372800, 830424300, 830480750,
  830539350, 830599840, 830662550, 830730400, 830798270, 830867350, 830940660, 831018270, 831096050,
  831175300, 831258600, 831342900, 831428470, 831518600, 831606860, 831697940, 831791940, 831887600,
  831981700, 832080660, 832178700, 832278000, 832378030, 832480400, 832581500, 832687100, 832788770,
  832893200, 832997860, 833103000, 833205940, 833312800, 833418370, 833521900, 833627100, 833731700, 833834770]
/-- bl_rect.rs:5058-5076 -/
def blRectChunk79 : List Nat := [
  833938300, 834039900, 834143160, 834245150, 834344400, 834443570, 834541700, 834638830, 834734100,
  834827840, 834919750, 835011660, 835101800, 835188900, 835273700, 835357370, 835438250, 835519730, 835596440]

/-- bl_rect.rs:1-5077, all literals in order -/
def blRectDecimals : List Nat := List.flatten [
  blRectChunk0, blRectChunk1, blRectChunk2, blRectChunk3, blRectChunk4, blRectChunk5, blRectChunk6,
  blRectChunk7, blRectChunk8, blRectChunk9, blRectChunk10, blRectChunk11, blRectChunk12, blRectChunk13,
  blRectChunk14, blRectChunk15, blRectChunk16, blRectChunk17, blRectChunk18, blRectChunk19, blRectChunk20,
  blRectChunk21, blRectChunk22, blRectChunk23, blRectChunk24, blRectChunk25, blRectChunk26, blRectChunk27,
  blRectChunk28, blRectChunk29, blRectChunk30, blRectChunk31, blRectChunk32, blRectChunk33, blRectChunk34,
  blRectChunk35, blRectChunk36, blRectChunk37, blRectChunk38, blRectChunk39, blRectChunk40, blRectChunk41,
  blRectChunk42, blRectChunk43, blRectChunk44, blRectChunk45, blRectChunk46, blRectChunk47, blRectChunk48,
  blRectChunk49, blRectChunk50, blRectChunk51, blRectChunk52, blRectChunk53, blRectChunk54, blRectChunk55,
  blRectChunk56, blRectChunk57, blRectChunk58, blRectChunk59, blRectChunk60, blRectChunk61, blRectChunk62,
  blRectChunk63, blRectChunk64, blRectChunk65, blRectChunk66, blRectChunk67, blRectChunk68, blRectChunk69,
  blRectChunk70, blRectChunk71, blRectChunk72, blRectChunk73, blRectChunk74, blRectChunk75, blRectChunk76,
  blRectChunk77, blRectChunk78, blRectChunk79]

end Verif.FMath
