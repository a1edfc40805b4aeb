import Verif.Model.ManLookup
/-
C344–C348: the names under which `gray man` shows its entries.
-/
namespace Verif.Props
open Verif Verif.Str Verif.ManLookup

namespace Lk

/-- An entry of the manual -/
inductive Entry where
  | builtin (key : Str)
  | stdlib (key : Str)
  | lang (key : Str)

def Documented : Entry → Prop
  | .builtin k => k ∈ builtins
  | .stdlib k => k ∈ stdlib
  | .lang k => k ∈ lang

def shows : Entry → Shown
  | .builtin k => .builtin k
  | .stdlib k => .stdlib k
  | .lang k => .lang k

/-- The same up to the order of the proposals for an ambiguous name -/
def Same : Shown → Shown → Prop
  | .ambiguous ks, .ambiguous ks' => ks.Perm ks'
  | a, b => a = b

theorem same_refl (a : Shown) : Same a a := by
  cases a <;> simp [Same]

theorem contains_perm {l l' : List Str} (h : l.Perm l') (n : Str) : l.contains n = l'.contains n := by
  rw [Bool.eq_iff_iff, List.contains_iff_mem, List.contains_iff_mem]
  exact h.mem_iff

theorem stdlib_perm {d d' : List Str} (h : d.Perm d') (n : Str) : Same (showStdlib d n) (showStdlib d' n) := by
  unfold showStdlib
  rw [contains_perm h n]
  by_cases hc : d'.contains n = true
  · rw [if_pos hc, if_pos hc]; exact same_refl _
  · rw [if_neg hc, if_neg hc]
    have hf := h.filter (fun k => hasSuffix k (lit "." ++ n))
    generalize d.filter (fun k => hasSuffix k (lit "." ++ n)) = l at hf
    generalize d'.filter (fun k => hasSuffix k (lit "." ++ n)) = l' at hf
    have hl := hf.length_eq
    match l, l', hf, hl with
    | [], [], _, _ => exact same_refl _
    | [], _ :: _, _, hl => simp at hl
    | _ :: _, [], _, hl => simp at hl
    | [a], [b], hf, _ =>
      have : a = b := by simpa using hf.mem_iff (a := a)
      subst this; exact same_refl _
    | [_], _ :: _ :: _, _, hl => simp at hl
    | _ :: _ :: _, [_], _, hl => simp at hl
    | _ :: _ :: _, _ :: _ :: _, hf, _ => exact hf

theorem name_perm {d d' : List Str} (h : d.Perm d') (n : Str) : Same (showName d n) (showName d' n) := by
  unfold showName
  split
  · exact same_refl _
  split
  · exact same_refl _
  split
  · exact same_refl _
  split
  · exact same_refl _
  split
  · exact same_refl _
  exact stdlib_perm h n

/-- Anything but a list of proposals is the same in every order -/
theorem in_order {d : List Str} (h : d.Perm stdlib) (n : Str) (e : Entry) : man d n = shows e ↔ man stdlib n = shows e := by
  have := name_perm h (trimSuffix n (lit "()"))
  unfold man
  generalize showName d _ = a at this
  generalize showName stdlib _ = b at this
  cases a <;> cases b <;> cases e <;> simp_all [Same, shows]

/-- The language reference is only reached by names that are not those of a builtin -/
theorem not_builtin {d : List Str} {n k : Str} (h : showName d n = .lang k) : builtins.contains n = false := by
  unfold showName at h
  split at h
  · simp at h
  split at h
  · simp at h
  split at h
  · simp at h
  split at h
  · simp at h
  split at h
  · simp at h
  · rename_i hb; simpa using hb

theorem to_lang {d : List Str} {n k : Str} (h : showName d n = .lang k) : showLang n = .lang k := by
  unfold showName at h
  split at h
  · simp at h
  split at h
  · simp at h
  split at h
  · simp at h
  split at h
  · simp at h
  split at h
  · simp at h
  unfold showStdlib at h
  split at h
  · simp at h
  split at h
  · simp at h
  · exact h
  · simp at h

theorem no_alias : (aliases.all fun a => a.2 != lit "new") = true := by decide +kernel

theorem lang_new {n : Str} (h : showLang n = .lang (lit "new")) : n = lit "new" := by
  unfold showLang at h
  split at h
  · simpa using h
  split at h
  · have : (n ++ lit "_type").length = (lit "new").length := by rw [(Shown.lang.inj h)]
    rw [List.length_append] at this
    have h1 : (lit "_type").length = 5 := by decide +kernel
    have h2 : (lit "new").length = 3 := by decide +kernel
    omega
  split at h
  · rename_i a ha
    split at h
    · have hm := List.mem_of_find?_eq_some ha
      have := List.all_eq_true.1 no_alias a hm
      rw [Shown.lang.inj h] at this
      simp at this
    · simp at h
  · simp at h

def keyWord : Str := lit "new"

/-- A string as a number, to compare many of them -/
def code : Str → Nat
  | [] => 1
  | b :: s => b.toNat + 256 * code s

theorem code_pos (s : Str) : 1 ≤ code s := by
  induction s with
  | nil => exact Nat.le_refl _
  | cons b s ih => simp only [code]; omega

theorem code_inj : ∀ {s t : Str}, code s = code t → s = t
  | [], [], _ => rfl
  | [], b :: t, h => by have := code_pos t; simp only [code] at h; omega
  | b :: s, [], h => by have := code_pos s; simp only [code] at h; omega
  | b :: s, c :: t, h => by
    have h1 := b.isLt
    have h2 := c.isLt
    simp only [code] at h
    have hb : b = c := BitVec.eq_of_toNat_eq (by omega)
    rw [hb, code_inj (s := s) (t := t) (by omega)]

def hasN (l : List Nat) (c : Nat) : Bool := l.any fun d => Nat.beq d c

theorem hasN_iff (l : List Nat) (c : Nat) : hasN l c = true ↔ c ∈ l := by
  unfold hasN
  rw [List.any_eq_true]
  exact ⟨fun ⟨x, hx, h⟩ => Nat.eq_of_beq_eq_true h ▸ hx, fun h => ⟨c, h, Nat.beq_refl c⟩⟩

theorem mem_code {l : List Str} {s : Str} : code s ∈ l.map code ↔ s ∈ l := by
  rw [List.mem_map]
  exact ⟨fun ⟨t, ht, h⟩ => code_inj h ▸ ht, fun h => ⟨s, h, rfl⟩⟩

/-- How often a number occurs -/
def times (c : Nat) : List Nat → Nat
  | [] => 0
  | d :: l => bif Nat.beq d c then times c l + 1 else times c l

/-- The part after the first dot -/
def after : Str → Str
  | [] => []
  | b :: s => if b == 46 then s else after s

def dots (s : Str) : Nat := (s.filter fun b => b == 46).length

theorem dots_append (s t : Str) : dots (s ++ t) = dots s + dots t := by simp [dots]

theorem after_append {m : Str} (t : Str) (h : dots m = 0) : after (m ++ 46 :: t) = t := by
  induction m with
  | nil => simp [after]
  | cons b m ih =>
    simp only [dots, List.filter_cons] at h
    split at h
    · simp at h
    · rename_i hb
      simp only [List.cons_append, after]
      rw [if_neg hb]
      exact ih h

theorem after_split {k : Str} (h : 0 < dots k) : ∃ m, k = m ++ 46 :: after k := by
  induction k with
  | nil => simp [dots] at h
  | cons b k ih =>
    by_cases hb : (b == 46) = true
    · refine ⟨[], ?_⟩
      simp only [after, List.nil_append]
      rw [if_pos hb, beq_iff_eq.1 hb]
    · have : 0 < dots k := by
        simp only [dots, List.filter_cons] at h
        rw [if_neg hb] at h
        exact h
      obtain ⟨m, hm⟩ := ih this
      refine ⟨b :: m, ?_⟩
      simp only [after]
      rw [if_neg hb, List.cons_append, ← hm]

theorem suffix_iff (s t : Str) : hasSuffix s t = true ↔ ∃ m, s = m ++ t := by
  unfold hasSuffix
  rw [Bool.and_eq_true, decide_eq_true_eq, beq_iff_eq]
  constructor
  · rintro ⟨_, h⟩
    exact ⟨s.take (s.length - t.length), by
      have := List.take_append_drop (s.length - t.length) s
      rw [h] at this; exact this.symm⟩
  · rintro ⟨m, rfl⟩
    simp

theorem dot : lit "." = [46] := by decide +kernel

/-- In a key with one dot, what `hasSuffix` finds is the name -/
theorem suffix_after {k n : Str} (hk : dots k = 1) : hasSuffix k (lit "." ++ n) = true ↔ after k = n := by
  rw [suffix_iff, dot]
  constructor
  · rintro ⟨m, rfl⟩
    have : dots m = 0 := by
      rw [dots_append, dots_append] at hk
      have : dots [46] = 1 := by decide
      omega
    exact after_append n this
  · rintro rfl
    obtain ⟨m, hm⟩ := after_split (k := k) (by omega)
    exact ⟨m, hm⟩

theorem one_dot : (stdlib.all fun k => Nat.beq (dots k) 1) = true := by decide +kernel

theorem stdlib_dots {k : Str} (h : k ∈ stdlib) : dots k = 1 := Nat.eq_of_beq_eq_true (List.all_eq_true.1 one_dot k h)

/-- The codes of the names of the library -/
def nameCodes : List Nat := [
  391900287758433, 6869205250199096880745, 100326473665442416, 6869205233723769709938, 393034326697330, 1590771936355, 6114011494,
  6870507622770068972903, 26837901722516743527, 115267990416859949073773192562, 450265274185419050250495346, 27198487664751768425,
  26764445502795575139, 25827967358694878825, 1599581024099, 26256396432439210857, 100613501851428210, 1534971178099, 409436605542243,
  432136108611986556612535652, 103131392319253606, 456305255426243805796135027, 6214476144, 102867504882541927, 103135759949915495,
  105941713623999847, 25612922568389586803, 6556909308815038639987, 24142189, 407255047235942, 392952822392178, 434525774710238945513271910,
  27122199089975882342, 372606031666566740415836774, 6630337138522933129076, 413851914825588, 5685516840615337226100, 1535240200560, 392957016632933,
  104552996161021288, 6593299521902852793714, 1687884677607134929187447, 394125231354480, 100896059226746995, 409436773576550, 26403591365621019248,
  100896059226746981, 6759319389598980927589, 6759319389598980927603, 26834246945864966512, 6869711893062446506352, 407255047365987,
  1777480439562879605436009, 29904416346206100979915230047849, 112770359008237155828463070825, 430856772001729440570633318, 6666440786994680261734,
  110625696491480511291889841224, 24405351, 6248689520, 24409456, 1547856798064, 393025568925028, 5979071848, 6593299521902852793714,
  1753869479143625466144114, 1753869042305456727483762, 449061402564544610844830054, 100605766630601577, 116814192575747326295469421417,
  6594308342513052445030, 1687884677607134929187447, 432098477467425416523313249, 448990586660768123946889847, 114941590185156638605055127649,
  432098477467426541804479844, 432098477467426511672730994, 6593299521903206100835, 6593299521902870949741, 26690975027726346604,
  26690975027474162029, 112783567393721741278446313837, 1749219739400594162279794, 7391383872714948036424305103168882, 6097232247, 5946436711,
  6593299521903054906740, 26690975027658843508, 6759105739032100102512, 100606831917951332, 25755348970778091874, 6759536405706446239845,
  432136478197082863121167209, 6594308334825195597678, 24881348143670779727, 24881348143905988431, 372009738592079, 392957016632933,
  6961802058976837399667, 392957016630628, 1535240200560, 25682177515910558569, 115261903453204824686583968368, 26767537372090623335,
  1753869547541043996812647, 106227578057220456, 27198487664751768425, 7250123465723680480101115202793315, 26256396432439210857, 1535038874989,
  7553649341605467281190048696132967, 1782203022207545106064754, 1590771936355, 24339041, 23553390, 6147238259, 24013165, 24666477, 1582383066211,
  1591007472742, 6113813859, 1530861547378, 1526566580852, 24604528, 6248624499, 6248620643, 1599597476200, 24148069, 5141198949, 23555948,
  5140606828, 1306498920300, 25757037768997302124, 24013171, 24342371, 24011124, 6147371873, 6231647073, 6146847841, 1316111873121, 6047033715,
  6047362915, 6047031668, 1682960043505132241380708, 1697199921123719484039538, 103131400657400681, 391857504744297, 432136256978566074844803945,
  402839719342953, 6593875991494232339305, 6721634110147530023270, 23356263, 23946092, 25755357784234226537, 6181512556, 25752548459079231844, 84304,
  325, 21579856, 1315674673491, 20074060, 5103504972, 22364500, 21384777, 91846919445759310, 6231126625, 105393022962001255, 105393022962001267,
  6907037152837715062389, 447800253290765391236330851, 25755348971029753704, 1754052431980733026956643, 6046315105, 23357808, 5962561637,
  373075342475597, 1478899943756, 95516015064926551, 1452861314127, 1758517694707453433635186, 26836503087975129458, 6722644587652748042610,
  6593880481856737927538, 6832314276553149014386, 392952621787235, 100605753747138675, 392991393800563, 5979334003, 450265348625980086409262152,
  110625696491480511291889841224, 407255047827282, 1749147111549231085937761, 6593879370332002083937, 402857001183596, 6231846755, 23425909,
  6249014644, 6147765098, 6114079848, 26833402546872411506, 6147108975, 1535240006755, 5962561637, 1621121922417, 409492539797364,
  104830090556174196, 26832850566214807412, 102579415705153396, 26836503088126194278, 6870144814689398256230, 1758517694707453584700006,
  6722644587652899107430, 1678385252661507655693161, 1749146170302389511222121, 336859743076674, 343456812843330, 85622678174777666,
  87311528035041602, 87313727058297154, 26689862394988949364, 26689870087124381556, 6130594420, 6869567218141582946932, 1758646244623986457145972,
  26764445502795575139, 435763035083127878515258483, 6649216233568234401381, 25827967358694878825, 28398150432704001484200799854956, 1599581024099,
  27198487664751768425, 29822408820898273756015888262514, 29822408825676196643888775914866, 100595836767987058, 409436639225202, 100613501851428210,
  1534971178099, 1599496548467, 6147370858, 104815753905137763, 26765562636387970932, 1754107912938322029146726, 25465727703758893929,
  26835093557017015145, 26334075807888012137, 28315210830402916535598281880425, 26689862394988950377, 26689870087124382569, 24604526,
  408388567002990, 408392861970286, 6213952889, 1548141621101, 24732004, 6215266152, 393025837492589, 391900454675827, 106223150146348407,
  409436773576550, 404016456494964, 5997093220, 26184895169776545652, 6012954980, 6096644468, 1754015533979150470704229]

/-- The codes of the keys of the library -/
def keyCodes : List Nat := [
  28239391838644317297499522101857, 494978403282049719299818036094787809889, 7229284310641317527870503457550945,
  494978402094877282383763423223358845537, 28321107956126559887613515428449, 114627198396810200876760330849, 440560958190952086739513953,
  495072249116054958805389768915942535777, 1933874627150918382189673659512287841, 8305934059025861928597902227162819568099029601,
  32445032336629239145142817825113909543203425, 1959857582592273539409238792802038369, 1928581548690689594481148775047000673,
  1861101186757689441254790271694172769, 115261960065311839328933147233, 1891972755027604009107355585366618721, 7249966871144524748358404749292129,
  110606330011390797224875291233, 29503016706430194389219529618017, 31138688283492461500568584287476731098591841, 7431400000307055584734320427954785,
  32880258852877289627342972344452090443231841, 447800199155814603554976353, 7412384906520776018483189816390241, 7431714721264197588785602191585889,
  7633904992000600178324326352843361, 1845605576557899367638242667422446177, 472475109118104712037049507467045794401, 1739628067223743491109473,
  29345818863624687285603876893281, 28315234951993573673255985902177, 122308132316744263095093086662477080721762, 7634220357192736839330247591885154,
  104879274085596825300981539509597480712546, 1866273991649540147470476641110882658, 116488958087192823941339314530,
  1600330720300244526832788238509570402, 6593806452910460400483, 1687737535172176051073891, 449051699210399982699311971,
  28318005819305188438104643892067, 7249409489742148057119361498248035, 1692754979195926162468198, 433345274674157392770657638,
  1758517552291039981890918, 113402561412290256401125895526, 433345274674157332641115494, 29031055721546305638923278511462,
  29031055721546305638983408053606, 115252213045277913601954573670, 29505187913645457030532075646310, 1749147109567845887143270,
  7634220357202272440933043255143782, 128438490212923017384409465907828749528422, 484345003898557578895304675137886121318,
  1850515745007556402691245679597350246, 28632145160862653850125029633382, 121634239623201469086726547991677883413608, 26833967403909805160,
  6870506785801487283304, 26838480899141825640, 1701886547603695420601448, 432136183046346218241553512, 6574059020383591625832,
  110617210231660892336346263401, 29425047087400099468600490749801, 29425039758471785495648214609769, 7534000148088318877779656302292841,
  1687884677607194870312809, 1959816940708909254681570304511078249, 110634135432943463689599479657, 28318005819305265848122505850729,
  7249409489742129176901595417177961, 7532812054374425541371743494369129, 1928399885919852919710948568477888361, 7249409489742148055986788113477481,
  7249409489742147550459929199275881, 110617210231666819846229618537, 110617210231661196943932944233, 447800253290770905869217641,
  447800253286539950782574441, 1892194271415026697324609951650180969, 29347037399387478788907159416681, 124006843771455189635866434365766620835689,
  102294582413127529, 99764653133819753, 110617210231664283230239879017, 447800253289638391846956905, 113398976950581174353469009769,
  1687902550163163777494889, 432103052838121735440985961, 113406202338400681158270414697, 7250047036191749764482256440553321,
  110634135303962628784495947625, 417439752177563704371343209, 417439752181509851603431273, 6241287738462848315241, 432060809004077068940440426,
  7654582314119930842388537671644010, 432060809001542694638416746, 1688014451945077728047978, 28237852805351006391225996505962,
  126731803086393392235082648089404795482986, 29431218587542274655451844993389, 1928399961123609903105906658178523501,
  116798457264396563446150226285, 29905053445316673880145855013229, 7971595053374818466505694353696178317246357869, 28869213180963195939748467204461,
  1687793092138794669334893, 8305325283237738011522379548297865142211731821, 1959552945974724596478200439706247533, 1749072241162265027436909,
  26761058787737756013, 25897226377863913837, 6758959944679315235181, 26402754336524624237, 27121078477090218349, 1739848580895033915629933,
  1749331216158535691034989, 6722209428227879100781, 1683200071857470245724525, 1678477706221224553898349, 27052964831261122925,
  6870435294455803437421, 6870431054738966733165, 1758776024843242739884397, 26551082853158117741, 5652808025334571360621, 25900038928607764845,
  5652156981410021007725, 1436510754546838811205997, 28320162524078135125911023149421, 26402760933594390893, 26764720161458250093,
  26400510233292333421, 6759106854825948897645, 6851768417159096852845, 6758530675548622184813, 1447080307950790412362093, 6648783883395323421037,
  6649145842623187280237, 6648781632695021363565, 1850434136916295727330641798124298605, 1866091047936039616979919477643960685,
  113394174211637459466681868653, 430851882897643836443746669, 475138839331531024494981432341857329517, 442926955547597445545615725,
  7250043324760909329904980215488877, 7390514861762996015391628179300717, 25680482949215314285, 26329006793114804589,
  28318315361296647009548526444909, 6796644932764663308653, 28315226475622526731151455052141, 92693427588981101, 357540599980397,
  23727302797052633453, 1446599601873946047439213, 22071662585994043757, 5611363059325950255469, 24590027998717305197, 23512811168217719149,
  100986755906017966877727547757, 104540957314020207, 1768201511126454850450287, 1768201511126455051776879, 115880854233183358548156773231,
  7512841574313881774096429737735023, 432103052842343920321852271, 29428116526666065831585425290095, 101440334523691887, 391878993146735,
  100035184500306799, 6259165604987068642159, 24811823798785307503, 1602492816203526773306223, 24374968085155574639,
  126714554153742574874522022524553704399218, 1933773844910911332179595305797181810, 484417594558355165109938966498359796082,
  475139162896249464654459209030556344690, 492320128479406109713133751874217730418, 28315220496884028970942577140082,
  7249408561391065907269359970967922, 28318014314880451126214672671090, 430856422218420753510850930, 32445037700636966244267390656060881741440371,
  7971421527946131478067711049182603902027195763, 29345818906235224942807123912051, 126039332476628744304106401957320932353395,
  475139082802451286121171814998462326131, 29028906246624627659696386499955, 449051883591442183918609779, 1688014653765071410455923,
  450288960367492392513856883, 442993161685299882213139827, 440565883615733770206995827, 1933550427378833772573364016798393715,
  442945883040512705376842099, 110625701157550591590431224179, 429647845878128433752207731, 116814145371522552619216957811,
  7553804081735300429361533624153203, 1933773851713541987126084845234713715, 494978727163056985156639685475998790771,
  1892256228743626916748734077345100915, 495046104299979955111059930653570266227, 126731803145898062974467518880363263980659,
  32438925863358101954531710849818117817922675, 124010904206941708922217458955949599519859, 30960743212935174791198486789463004673111155,
  32266051751077361825632302577572736775910515, 6213965469270961617103398534018163, 6335659926892871639647082041734259,
  1579459631195720081391419839036421235, 1610613412346929047162602817011741811, 1610653977166136350503450711514313843,
  492341060962885821577393291567347954803, 492341202857739519536429815986039977075, 113089506288798978509731165299,
  126721148370202655822012076363501622424691, 32441297190769080576835011736986667160073331, 493716876464816536187174066676506457203,
  8038409184961376621038706545225507268249941107, 122656390151388173708414786063251660764275, 476441903809968496961226289818182513779,
  523853413198794878273000531369053275814036574991475, 29507061776719830848471359976563, 501723541143622026088765111221796107379,
  550126343180648688316598559615555207950536220505203, 550126343268785809033108976400187942696545028306035, 1855665655739718680190937340050568307,
  7552772898187054081872269046609011, 1855991519012998335579731880293069939, 28315220482916044069832548840563, 29505503476355861979514161755251,
  113398976947053434232424789107, 1933509387180998824781510181418857587, 493737483942291605143512723885741208691,
  32357579747642022009991478139097128513991795, 469759761602015524653981657950674121843, 495020103040344995688419729492610806899,
  485777956845776260584657391231815545971, 522323447581571512407054391145663393038776057099379, 492341060962885840263945038235123741811,
  492341202857739538222981562653815764083, 27052962632187079028, 449027978070565776029215092, 449032700437048645674428788, 6832313456107038009716,
  1702199713844735209466228, 27193126175472707956, 6833757404045866002804, 432136478339502380996716916, 430899106846773254439135604,
  116793588724905989802264717684, 450180493386506235112417652, 444220791729069554456684916, 6593873728445883443572, 28790596711264929588216165394804,
  6611313918002875689332, 6703331483181495708020, 1928560474909805572489643628107229556]

/-- The codes of the keys that the indexes of modules list -/
def indexCodes : List Nat := [
  28239391838644317297499522101857, 494978403282049719299818036094787809889, 7229284310641317527870503457550945,
  494978402094877282383763423223358845537, 28321107956126559887613515428449, 114627198396810200876760330849, 440560958190952086739513953,
  8305934059025861928597902227162819568099029601, 32445032336629239145142817825113909543203425, 1845605576557899367638242667422446177,
  472475109118104712037049507467045794401, 495072249116054958805389768915942535777, 1933874627150918382189673659512287841,
  1959857582592273539409238792802038369, 1928581548690689594481148775047000673, 1861101186757689441254790271694172769,
  115261960065311839328933147233, 1891972755027604009107355585366618721, 7249966871144524748358404749292129, 110606330011390797224875291233,
  29503016706430194389219529618017, 31138688283492461500568584287476731098591841, 7431400000307055584734320427954785,
  32880258852877289627342972344452090443231841, 447800199155814603554976353, 7412384906520776018483189816390241, 7431714721264197588785602191585889,
  7633904992000600178324326352843361, 1739628067223743491109473, 29345818863624687285603876893281, 28315234951993573673255985902177,
  122308132316744263095093086662477080721762, 7634220357192736839330247591885154, 104879274085596825300981539509597480712546,
  1866273991649540147470476641110882658, 116488958087192823941339314530, 1600330720300244526832788238509570402, 6593806452910460400483,
  449051699210399982699311971, 1687737535172176051073891, 28318005819305188438104643892067, 7249409489742148057119361498248035,
  1692754979195926162468198, 433345274674157392770657638, 1758517552291039981890918, 113402561412290256401125895526, 433345274674157332641115494,
  29031055721546305638923278511462, 29031055721546305638983408053606, 115252213045277913601954573670, 29505187913645457030532075646310,
  1749147109567845887143270, 7634220357202272440933043255143782, 128438490212923017384409465907828749528422, 484345003898557578895304675137886121318,
  1850515745007556402691245679597350246, 28632145160862653850125029633382, 121634239623201469086726547991677883413608, 26833967403909805160,
  6870506785801487283304, 26838480899141825640, 1701886547603695420601448, 432136183046346218241553512, 6574059020383591625832,
  110617210231660892336346263401, 29425047087400099468600490749801, 29425039758471785495648214609769, 7534000148088318877779656302292841,
  1687884677607194870312809, 1959816940708909254681570304511078249, 110634135432943463689599479657, 7249409489742148055986788113477481,
  7249409489742147550459929199275881, 110617210231666819846229618537, 110617210231661196943932944233, 28318005819305265848122505850729,
  7249409489742129176901595417177961, 7532812054374425541371743494369129, 1928399885919852919710948568477888361, 447800253290770905869217641,
  447800253286539950782574441, 1892194271415026697324609951650180969, 29347037399387478788907159416681, 124006843771455189635866434365766620835689,
  102294582413127529, 99764653133819753, 110617210231664283230239879017, 447800253289638391846956905, 113398976950581174353469009769,
  1687902550163163777494889, 432103052838121735440985961, 113406202338400681158270414697, 7250047036191749764482256440553321,
  110634135303962628784495947625, 417439752177563704371343209, 417439752181509851603431273, 6241287738462848315241, 432060809004077068940440426,
  7654582314119930842388537671644010, 432060809001542694638416746, 1688014451945077728047978, 28237852805351006391225996505962,
  126731803086393392235082648089404795482986, 29431218587542274655451844993389, 1928399961123609903105906658178523501,
  116798457264396563446150226285, 29905053445316673880145855013229, 7971595053374818466505694353696178317246357869, 28869213180963195939748467204461,
  8305325283237738011522379548297865142211731821, 1687793092138794669334893, 1959552945974724596478200439706247533, 1749072241162265027436909,
  26761058787737756013, 25897226377863913837, 6758959944679315235181, 26402754336524624237, 27121078477090218349, 1739848580895033915629933,
  1749331216158535691034989, 6722209428227879100781, 1683200071857470245724525, 1678477706221224553898349, 27052964831261122925,
  6870435294455803437421, 6870431054738966733165, 1758776024843242739884397, 26551082853158117741, 5652808025334571360621, 25900038928607764845,
  5652156981410021007725, 1436510754546838811205997, 28320162524078135125911023149421, 26402760933594390893, 26764720161458250093,
  26400510233292333421, 6759106854825948897645, 6851768417159096852845, 6758530675548622184813, 1447080307950790412362093, 6648783883395323421037,
  6649145842623187280237, 6648781632695021363565, 1850434136916295727330641798124298605, 1866091047936039616979919477643960685,
  113394174211637459466681868653, 430851882897643836443746669, 475138839331531024494981432341857329517, 442926955547597445545615725,
  7250043324760909329904980215488877, 7390514861762996015391628179300717, 25680482949215314285, 26329006793114804589,
  28318315361296647009548526444909, 6796644932764663308653, 28315226475622526731151455052141, 92693427588981101, 357540599980397,
  23727302797052633453, 1446599601873946047439213, 22071662585994043757, 5611363059325950255469, 24590027998717305197, 23512811168217719149,
  100986755906017966877727547757, 104540957314020207, 7512841574313881774096429737735023, 432103052842343920321852271,
  29428116526666065831585425290095, 101440334523691887, 391878993146735, 100035184500306799, 1768201511126454850450287, 1768201511126455051776879,
  115880854233183358548156773231, 6259165604987068642159, 24811823798785307503, 1602492816203526773306223, 24374968085155574639,
  126714554153742574874522022524553704399218, 1933773844910911332179595305797181810, 484417594558355165109938966498359796082,
  475139162896249464654459209030556344690, 492320128479406109713133751874217730418, 28315220496884028970942577140082,
  7249408561391065907269359970967922, 28318014314880451126214672671090, 430856422218420753510850930, 32445037700636966244267390656060881741440371,
  7971421527946131478067711049182603902027195763, 29345818906235224942807123912051, 126039332476628744304106401957320932353395,
  475139082802451286121171814998462326131, 29028906246624627659696386499955, 449051883591442183918609779, 1688014653765071410455923,
  450288960367492392513856883, 442993161685299882213139827, 440565883615733770206995827, 1933550427378833772573364016798393715,
  442945883040512705376842099, 110625701157550591590431224179, 429647845878128433752207731, 116814145371522552619216957811,
  7553804081735300429361533624153203, 1933773851713541987126084845234713715, 494978727163056985156639685475998790771,
  1892256228743626916748734077345100915, 495046104299979955111059930653570266227, 126731803145898062974467518880363263980659,
  32438925863358101954531710849818117817922675, 124010904206941708922217458955949599519859, 30960743212935174791198486789463004673111155,
  32266051751077361825632302577572736775910515, 6213965469270961617103398534018163, 6335659926892871639647082041734259,
  1579459631195720081391419839036421235, 1610613412346929047162602817011741811, 1610653977166136350503450711514313843,
  492341060962885821577393291567347954803, 492341202857739519536429815986039977075, 113089506288798978509731165299,
  126721148370202655822012076363501622424691, 32441297190769080576835011736986667160073331, 493716876464816536187174066676506457203,
  8038409184961376621038706545225507268249941107, 122656390151388173708414786063251660764275, 476441903809968496961226289818182513779,
  523853413198794878273000531369053275814036574991475, 29507061776719830848471359976563, 501723541143622026088765111221796107379,
  550126343180648688316598559615555207950536220505203, 550126343268785809033108976400187942696545028306035, 1855665655739718680190937340050568307,
  7552772898187054081872269046609011, 1855991519012998335579731880293069939, 28315220482916044069832548840563, 29505503476355861979514161755251,
  113398976947053434232424789107, 1933509387180998824781510181418857587, 493737483942291605143512723885741208691,
  32357579747642022009991478139097128513991795, 469759761602015524653981657950674121843, 495020103040344995688419729492610806899,
  485777956845776260584657391231815545971, 522323447581571512407054391145663393038776057099379, 492341060962885840263945038235123741811,
  492341202857739538222981562653815764083, 27052962632187079028, 449027978070565776029215092, 449032700437048645674428788, 6832313456107038009716,
  1702199713844735209466228, 27193126175472707956, 6833757404045866002804, 432136478339502380996716916, 430899106846773254439135604,
  116793588724905989802264717684, 450180493386506235112417652, 444220791729069554456684916, 6593873728445883443572, 28790596711264929588216165394804,
  6611313918002875689332, 6703331483181495708020, 1928560474909805572489643628107229556]

theorem nameCodes_eq : stdlib.map (fun k => code (after k)) = nameCodes := by decide +kernel
theorem keyCodes_eq : stdlib.map code = keyCodes := by decide +kernel

theorem filter_length (l : List Str) (hl : ∀ k ∈ l, dots k = 1) (n : Str) :
    (l.filter fun k => hasSuffix k (lit "." ++ n)).length = times (code n) (l.map fun k => code (after k)) := by
  induction l with
  | nil => rfl
  | cons k l ih =>
    have hk := hl k (List.mem_cons_self ..)
    have ih := ih fun k hk => hl k (List.mem_cons_of_mem _ hk)
    rw [List.filter_cons, List.map_cons, times]
    by_cases h : hasSuffix k (lit "." ++ n) = true
    · rw [if_pos h, (suffix_after hk).1 h, Nat.beq_refl, cond_true, List.length_cons, ih]
    · rw [if_neg h, ih]
      have : Nat.beq (code (after k)) (code n) = false := by
        rw [← Bool.not_eq_true]
        intro hb
        exact h ((suffix_after hk).2 (code_inj (Nat.eq_of_beq_eq_true hb)))
      rw [this, cond_false]

/-- The names of indexes, modules and builtins -/
def earlyNames : List Str :=
  [lit "builtins", lit "builtin", lit "lang", lit "language", lit "keywords", lit "types", lit "symbols", lit "attributes"] ++
    modules.map (·.1) ++ builtins

def earlyCodes : List Nat := [
  26764445584265409890, 103135790232073570, 6030254444, 25753660151015825772, 26761640708813710699, 1595134736756, 104546442008164723,
  1753869478017768745104481, 408440139838049, 1595134998882, 24540003, 24407398, 6181647464, 94057, 6147765098, 6231712109, 6047424877, 95087,
  401800170463602, 407255081182579, 393025636036979, 105393065978655859, 104540940272825459, 5996636532, 103139088800510576, 1599580238448,
  26403606732930707557, 409492541042789, 1599698136681, 409509653869409, 1526482231664, 6248036453, 104532152701774963, 26764153096874847347,
  26764434571851558003, 24407657, 6248360309, 1599362526310, 395198889882739, 6213953635, 5997099362, 6114209634, 6248685923, 5237780841, 5237780853,
  5204423273, 5204423285, 24012140, 100890497176861044, 100890497177512307, 24601966, 23487858, 6214149217, 6332378979, 1591007670885, 1535038611826,
  25899754447355207523, 104252842354634612, 1758757935567102514653283, 5996963176, 7432188877596924829564944784912211, 1530709306725, 1591007670853]

theorem earlyCodes_eq : earlyNames.map code = earlyCodes := by decide +kernel

def early (n : Str) : Bool := hasN earlyCodes (code n) || hasSuffix n (lit "()")

theorem late {d : List Str} {n : Str} (h : early n = false) : man d n = showStdlib d n := by
  rw [early, Bool.or_eq_false_iff, ← Bool.not_eq_true, hasN_iff, ← earlyCodes_eq, mem_code] at h
  obtain ⟨h, hs⟩ := h
  simp only [earlyNames, List.mem_append, List.mem_cons, List.not_mem_nil, or_false, not_or] at h
  obtain ⟨⟨⟨h1, h2, h3, h4, h5, h6, h7, h8⟩, h9⟩, h10⟩ := h
  have h9 : (modules.any fun m => m.1 == n) = false := by
    rw [← Bool.not_eq_true, List.any_eq_true]
    rintro ⟨m, hm, he⟩
    exact h9 (List.mem_map.2 ⟨m, hm, beq_iff_eq.1 he⟩)
  have h10 : builtins.contains n = false := by
    rw [← Bool.not_eq_true, List.contains_iff_mem]
    exact h10
  unfold man trimSuffix
  rw [hs]
  simp only [Bool.false_eq_true, if_false]
  unfold showName
  rw [beq_false_of_ne h1, beq_false_of_ne h2, beq_false_of_ne h3, beq_false_of_ne h4, beq_false_of_ne h5, beq_false_of_ne h6, beq_false_of_ne h7,
    beq_false_of_ne h8, h9, h10]
  rfl

/-- A name without a dot that one key has -/
theorem once {n k : Str} (he : early n = false) (hd : dots n = 0) (hk : k ∈ stdlib) (hn : after k = n) (ht : times (code n) nameCodes = 1) :
    man stdlib n = .stdlib k := by
  rw [late he]
  unfold showStdlib
  have hc : stdlib.contains n = false := by
    rw [← Bool.not_eq_true, List.contains_iff_mem]
    intro hm
    have := stdlib_dots hm
    omega
  rw [hc]
  simp only [Bool.false_eq_true, if_false]
  have hl := filter_length stdlib (fun k => stdlib_dots) n
  rw [nameCodes_eq, ht] at hl
  have hm : k ∈ stdlib.filter fun k => hasSuffix k (lit "." ++ n) := List.mem_filter.2 ⟨hk, (suffix_after (stdlib_dots hk)).2 hn⟩
  obtain ⟨x, hx⟩ := List.length_eq_one_iff.1 hl
  rw [hx] at hm ⊢
  rw [List.mem_singleton.1 hm]

/-- A name without a dot that no key has -/
theorem never {n : Str} (he : early n = false) (hd : dots n = 0) (ht : times (code n) nameCodes = 0) : man stdlib n = showLang n := by
  rw [late he]
  unfold showStdlib
  have hc : stdlib.contains n = false := by
    rw [← Bool.not_eq_true, List.contains_iff_mem]
    intro hm
    have := stdlib_dots hm
    omega
  rw [hc]
  simp only [Bool.false_eq_true, if_false]
  have hl := filter_length stdlib (fun k => stdlib_dots) n
  rw [nameCodes_eq, ht] at hl
  rw [List.eq_nil_of_length_eq_zero hl]

theorem all_builtins : (builtins.all fun k => man stdlib k == .builtin k) = true := by decide +kernel

theorem keys_late : (keyCodes.all fun c => !hasN earlyCodes c) = true := by decide +kernel
theorem keys_plain : (stdlib.all fun k => !hasSuffix k (lit "()")) = true := by decide +kernel

theorem stdlib_late {k : Str} (h : k ∈ stdlib) : early k = false := by
  have h1 := List.all_eq_true.1 keys_late (code k) (keyCodes_eq ▸ mem_code.2 h)
  have h2 := List.all_eq_true.1 keys_plain k h
  rw [Bool.not_eq_true'] at h1 h2
  rw [early, h1, h2]; rfl

theorem all_stdlib {k : Str} (h : k ∈ stdlib) : man stdlib k = .stdlib k := by
  rw [late (stdlib_late h)]
  unfold showStdlib
  rw [if_pos (List.contains_iff_mem.2 h)]

def quiet (n : Str) : Bool := !early n && Nat.beq (dots n) 0 && Nat.beq (times (code n) nameCodes) 0

theorem quiet_man {n : Str} (h : quiet n = true) : man stdlib n = showLang n := by
  simp only [quiet, Bool.and_eq_true, Bool.not_eq_true'] at h
  exact never h.1.1 (Nat.eq_of_beq_eq_true h.1.2) (Nat.eq_of_beq_eq_true h.2)

theorem all_lang_quiet : (lang.all fun k => k == keyWord || (quiet k && showLang k == .lang k)) = true := by decide +kernel

/-- The entry that a line of an index of a module stands for -/
def ofModule (m n : Str) : Str := m ++ lit "." ++ n

/-- The entry that a name in an index of the language stands for: the keys of types have a suffix. -/
def ofCategory (c n : Str) : Str := if c == lit "types" then n ++ lit "_type" else n

/-- What an index says that a name shows -/
inductive Listed : Str → Entry → Prop
  | builtin {n} : n ∈ builtinsIndex → Listed n (.builtin n)
  | stdlib {g n} : g ∈ moduleIndex → n ∈ g.2 → Listed n (.stdlib (ofModule g.1 n))
  | lang {g n} : g ∈ categories → n ∈ g.2 → Listed n (.lang (ofCategory g.1 n))

/-- The names that two modules have, or that are modules -/
def clashes : List Str :=
  [lit "clear", lit "contains", lit "count", lit "index_of", lit "is_empty", lit "is_equal", lit "reverse", lit "slice", lit "encode", lit "parse",
   lit "read_file", lit "write_file", lit "format", lit "HttpResponse", lit "exec", lit "json"]

theorem all_listed_builtin : (builtinsIndex.all fun n => man stdlib n == .builtin n) = true := by decide +kernel

def clashCodes : List Nat := [
  1590771936355, 26764445502795575139, 1599581024099, 25827967358694878825, 27198487664751768425, 26256396432439210857, 100613501851428210,
  1534971178099, 392957016632933, 1535240200560, 6593299521902852793714, 1687884677607134929187447, 409436773576550, 110625696491480511291889841224,
  5962561637, 6147765098]

theorem clashCodes_eq : clashes.map code = clashCodes := by decide +kernel

theorem all_single : (nameCodes.all fun c => hasN clashCodes c || (!hasN earlyCodes c && Nat.beq (times c nameCodes) 1)) = true := by decide +kernel

def plain (m n : Str) : Bool := !hasSuffix n (lit "()") && Nat.beq (dots n) 0 && Nat.beq (dots m) 0

theorem all_plain : (moduleIndex.all fun g => g.2.all fun n => plain g.1 n) = true := by decide +kernel

/-- The entry shown, if it is one of the library -/
def shownStdlib : Shown → Bool
  | .stdlib _ => true
  | _ => false

theorem all_clash : (clashes.all fun n => !shownStdlib (man stdlib n)) = true := by decide +kernel

theorem indexCodes_eq : (moduleIndex.flatMap fun g => g.2.map fun n => ofModule g.1 n).map code = indexCodes := by decide +kernel

theorem all_keys : (keyCodes.all fun c => hasN indexCodes c) = true := by decide +kernel
theorem all_index : (indexCodes.all fun c => hasN keyCodes c) = true := by decide +kernel

theorem docs_listed {k : Str} (h : k ∈ stdlib) : ∃ g ∈ moduleIndex, ∃ n ∈ g.2, ofModule g.1 n = k := by
  have h1 : code k ∈ keyCodes := keyCodes_eq ▸ mem_code.2 h
  have h2 := (hasN_iff _ _).1 (List.all_eq_true.1 all_keys _ h1)
  rw [← indexCodes_eq, mem_code, List.mem_flatMap] at h2
  obtain ⟨g, hg, h⟩ := h2
  obtain ⟨n, hn, h⟩ := List.mem_map.1 h
  exact ⟨g, hg, n, hn, h⟩

theorem listed_doc {g : Str × List Str} (hg : g ∈ moduleIndex) {n : Str} (hn : n ∈ g.2) : ofModule g.1 n ∈ stdlib := by
  have h1 : code (ofModule g.1 n) ∈ indexCodes := by
    rw [← indexCodes_eq, mem_code, List.mem_flatMap]
    exact ⟨g, hg, List.mem_map_of_mem hn⟩
  have h2 := (hasN_iff _ _).1 (List.all_eq_true.1 all_index _ h1)
  rwa [← keyCodes_eq, mem_code] at h2

theorem listed_stdlib {g : Str × List Str} (hg : g ∈ moduleIndex) {n : Str} (hn : n ∈ g.2) :
    man stdlib n = .stdlib (ofModule g.1 n) ↔ n ∉ clashes := by
  constructor
  · intro h hc
    have := List.all_eq_true.1 all_clash n hc
    rw [h] at this
    simp [shownStdlib] at this
  · intro hc
    have hp := List.all_eq_true.1 (List.all_eq_true.1 all_plain g hg) n hn
    simp only [plain, Bool.and_eq_true, Bool.not_eq_true'] at hp
    obtain ⟨⟨hp, h2⟩, h4⟩ := hp
    have ha : after (ofModule g.1 n) = n := by
      unfold ofModule
      rw [dot, List.append_assoc]
      exact after_append n (Nat.eq_of_beq_eq_true h4)
    have hm : code n ∈ nameCodes := by
      rw [← nameCodes_eq, List.mem_map]
      exact ⟨_, listed_doc hg hn, by rw [ha]⟩
    have := List.all_eq_true.1 all_single _ hm
    rw [Bool.or_eq_true, hasN_iff, ← clashCodes_eq, mem_code, Bool.and_eq_true, Bool.not_eq_true'] at this
    obtain ⟨h1, h3⟩ := this.resolve_left hc
    exact once (by rw [early, h1, hp]; rfl) (Nat.eq_of_beq_eq_true h2) (listed_doc hg hn) ha (Nat.eq_of_beq_eq_true h3)

theorem all_listed_lang :
    (categories.all fun g => g.2.all fun n => bif builtinsIndex.contains n then man stdlib n != .lang (ofCategory g.1 n)
      else quiet n && showLang n == .lang (ofCategory g.1 n)) = true := by decide +kernel

theorem listed_lang {g : Str × List Str} (hg : g ∈ categories) {n : Str} (hn : n ∈ g.2) :
    man stdlib n = .lang (ofCategory g.1 n) ↔ n ∉ builtinsIndex := by
  have := List.all_eq_true.1 (List.all_eq_true.1 all_listed_lang g hg) n hn
  rw [← List.contains_iff_mem, Bool.not_eq_true]
  cases hb : builtinsIndex.contains n
  · rw [hb, cond_false, Bool.and_eq_true, beq_iff_eq] at this
    simp only [iff_true]
    rw [quiet_man this.1, this.2]
  · rw [hb, cond_true, bne_iff_ne] at this
    simp [this]

theorem all_builtins_listed : (builtins.all fun k => k == lit "embed" || builtinsIndex.contains k) = true := by decide +kernel
theorem all_lang_listed : (lang.all fun k => categories.any fun g => g.2.any fun n => ofCategory g.1 n == k) = true := by decide +kernel

end Lk

open Lk

/-- C344: every entry of the manual is shown for some name. -/
def C344_statement : Prop := ∀ docs, docs.Perm stdlib → ∀ e, Lk.Documented e → ∃ arg, man docs arg = shows e

/-- `gray man new` shows the builtin, and nothing shows the keyword. -/
theorem C344_witness : lit "new" ∈ lang ∧ (∀ docs arg, man docs arg ≠ .lang (lit "new")) ∧ man stdlib (lit "new") = .builtin (lit "new") := by
  refine ⟨by decide +kernel, fun docs arg h => ?_, by decide +kernel⟩
  have h1 := lang_new (to_lang h)
  have h2 := not_builtin h
  rw [h1] at h2
  exact absurd h2 (by decide +kernel)

theorem C344_fails : ¬ C344_statement := fun h => by
  obtain ⟨arg, ha⟩ := h stdlib (List.Perm.refl _) (.lang (lit "new")) C344_witness.1
  exact C344_witness.2.1 stdlib arg ha

/-- All other entries are shown for their own keys, whatever the order of the table.  Missing: the keyword `new`. -/
theorem C344_partial (docs : List Str) (hd : docs.Perm stdlib) :
    (∀ k ∈ builtins, man docs k = .builtin k) ∧ (∀ k ∈ stdlib, man docs k = .stdlib k) ∧
      ∀ k ∈ lang, k ≠ lit "new" → man docs k = .lang k := by
  refine ⟨fun k hk => ?_, fun k hk => ?_, fun k hk hn => ?_⟩
  · exact (in_order hd k (.builtin k)).2 (beq_iff_eq.1 (List.all_eq_true.1 all_builtins k hk))
  · exact (in_order hd k (.stdlib k)).2 (all_stdlib hk)
  · refine (in_order hd k (.lang k)).2 ?_
    have := List.all_eq_true.1 all_lang_quiet k hk
    simp only [Bool.or_eq_true, Bool.and_eq_true, beq_iff_eq] at this
    have := this.resolve_left hn
    exact (quiet_man this.1).trans this.2

example : man stdlib (lit "strings.contains()") = .stdlib (lit "strings.contains") := by decide +kernel

/-- C345: a name in an index shows the entry that the index lists. -/
def C345_statement : Prop := ∀ docs, docs.Perm stdlib → ∀ n e, Listed n e → man docs n = shows e

/-- `gray man int` is not the type of the index `types`, `gray man json` not the function of `server`. -/
theorem C345_witness :
    man stdlib (lit "int") = .builtin (lit "int") ∧ man stdlib (lit "json") = .module (lit "json") ∧
      man stdlib (lit "clear") = .ambiguous [lit "arrays.clear", lit "maps.clear"] := by decide +kernel

theorem C345_fails : ¬ C345_statement := fun h => by
  have hl : Listed (lit "int") (.lang (ofCategory (lit "types") (lit "int"))) :=
    Listed.lang (g := categories[1]) (List.getElem_mem _) (by decide +kernel)
  have := h stdlib (List.Perm.refl _) _ _ hl
  rw [C345_witness.1] at this
  simp [shows] at this

/-- Builtins are shown; a name of a module exactly if it is none of sixteen names that two modules have or that is a module itself; keywords, types,
symbols and attributes exactly if they are not builtins.  Missing: those. -/
theorem C345_partial (docs : List Str) (hd : docs.Perm stdlib) :
    (∀ n ∈ builtinsIndex, man docs n = .builtin n) ∧
      (∀ g ∈ moduleIndex, ∀ n ∈ g.2, man docs n = .stdlib (g.1 ++ lit "." ++ n) ↔ n ∉ clashes) ∧
      ∀ g ∈ categories, ∀ n ∈ g.2, man docs n = .lang (ofCategory g.1 n) ↔ n ∉ builtinsIndex := by
  refine ⟨fun n hn => ?_, fun g hg n hn => ?_, fun g hg n hn => ?_⟩
  · exact (in_order hd n (.builtin n)).2 (beq_iff_eq.1 (List.all_eq_true.1 all_listed_builtin n hn))
  · exact (in_order hd n (.stdlib (ofModule g.1 n))).trans (listed_stdlib hg hn)
  · exact (in_order hd n (.lang (ofCategory g.1 n))).trans (listed_lang hg hn)

/-- An alias shows its symbol or attribute, `json` apart. -/
theorem C345_aliases (docs : List Str) (hd : docs.Perm stdlib) (a : Str × Str) (ha : a ∈ aliases) :
    man docs a.1 = .lang a.2 ↔ a.1 ≠ lit "json" := by
  have h : (aliases.all fun a => (man stdlib a.1 == .lang a.2) == (a.1 != lit "json")) = true := by decide +kernel
  have h1 := List.all_eq_true.1 h a ha
  rw [beq_iff_eq] at h1
  refine (in_order hd a.1 (.lang a.2)).trans ?_
  show man stdlib a.1 = .lang a.2 ↔ _
  rw [← beq_iff_eq, h1, bne_iff_ne]

/-- C346: every entry of the manual is listed in an index. -/
def C346_statement : Prop := ∀ e, Lk.Documented e → ∃ n, Listed n e

/-- The builtin `embed` is documented and not in the index. -/
theorem C346_witness : lit "embed" ∈ builtins ∧ lit "embed" ∉ builtinsIndex := by decide +kernel

theorem C346_fails : ¬ C346_statement := fun h => by
  obtain ⟨n, hn⟩ := h (.builtin (lit "embed")) C346_witness.1
  cases hn with
  | builtin h => exact C346_witness.2 h

/-- All other entries are listed.  Missing: the builtin `embed`. -/
theorem C346_partial (e : Lk.Entry) (hd : Lk.Documented e) (he : e ≠ .builtin (lit "embed")) : ∃ n, Listed n e := by
  cases e with
  | builtin k =>
    have := List.all_eq_true.1 all_builtins_listed k hd
    simp only [Bool.or_eq_true, beq_iff_eq, List.contains_iff_mem] at this
    exact ⟨k, .builtin (this.resolve_left fun h => he (by rw [h]))⟩
  | stdlib k =>
    obtain ⟨g, hg, n, hn, h⟩ := docs_listed hd
    exact ⟨n, h ▸ .stdlib hg hn⟩
  | lang k =>
    have := List.all_eq_true.1 all_lang_listed k hd
    rw [List.any_eq_true] at this
    obtain ⟨g, hg, h⟩ := this
    rw [List.any_eq_true] at h
    obtain ⟨n, hn, h⟩ := h
    rw [beq_iff_eq] at h
    exact ⟨n, h ▸ .lang hg hn⟩

/-- Nothing else is listed. -/
theorem C346_sound (n : Str) (e : Lk.Entry) (h : Listed n e) : Lk.Documented e := by
  have h1 : (builtinsIndex.all fun n => builtins.contains n) = true := by decide +kernel
  have h3 : (categories.all fun g => g.2.all fun n => lang.contains (ofCategory g.1 n)) = true := by decide +kernel
  cases h with
  | builtin h => exact List.contains_iff_mem.1 (List.all_eq_true.1 h1 _ h)
  | stdlib hg hn => exact listed_doc hg hn
  | lang hg hn => exact List.contains_iff_mem.1 (List.all_eq_true.1 (List.all_eq_true.1 h3 _ hg) _ hn)

/-- The indexes of modules are those of the modules that the usage lists, with the same names. -/
theorem C346_modules : moduleIndex.map (·.1) = modules.map (·.1) ∧
    ((moduleIndex.zip modules).all fun p => p.1.2.all (fun n => p.2.2.contains n) && p.2.2.all fun n => p.1.2.contains n) = true := by decide +kernel

/-- C347: what is shown does not depend on the order in which the table of the library is visited. -/
def C347_statement : Prop := ∀ docs docs' arg, docs.Perm docs' → man docs arg = man docs' arg

/-- The proposals for `clear` come in the order of the visit. -/
theorem C347_witness :
    man [lit "arrays.clear", lit "maps.clear"] (lit "clear") ≠ man [lit "maps.clear", lit "arrays.clear"] (lit "clear") := by decide +kernel

theorem C347_fails : ¬ C347_statement := fun h => C347_witness (h _ _ _ (List.Perm.swap _ _ _))

/-- For every table only the order of the proposals for an ambiguous name depends on it.  Missing: that order. -/
theorem C347_partial (docs docs' : List Str) (arg : Str) (h : docs.Perm docs') : Same (man docs arg) (man docs' arg) :=
  name_perm h _

/-- The proposals are exactly the keys with that name after a dot, and at least two. -/
theorem C347_ambiguous (docs : List Str) (arg : Str) (ks : List Str) (h : man docs arg = .ambiguous ks) :
    2 ≤ ks.length ∧ ∃ n, (arg = n ∨ arg = n ++ lit "()") ∧ ∀ k, k ∈ ks ↔ k ∈ docs ∧ ∃ m, k = m ++ lit "." ++ n := by
  unfold man at h
  have hn : arg = trimSuffix arg (lit "()") ∨ arg = trimSuffix arg (lit "()") ++ lit "()" := by
    unfold trimSuffix
    split
    · rename_i hs
      obtain ⟨m, hm⟩ := (suffix_iff _ _).1 hs
      refine Or.inr ?_
      rw [hm]; simp
    · exact Or.inl rfl
  generalize trimSuffix arg (lit "()") = n at h hn
  unfold showName at h
  split at h
  · simp at h
  split at h
  · simp at h
  split at h
  · simp at h
  split at h
  · simp at h
  split at h
  · simp at h
  unfold showStdlib at h
  split at h
  · simp at h
  split at h
  · simp at h
  · unfold showLang at h
    split at h
    · simp at h
    split at h
    · simp at h
    split at h
    · split at h <;> simp at h
    · simp at h
  · rename_i h1 h2
    have hks := Shown.ambiguous.inj h
    refine ⟨?_, n, hn, fun k => ?_⟩
    · subst hks
      generalize docs.filter (fun k => hasSuffix k (lit "." ++ n)) = l at h1 h2 ⊢
      match l, h1, h2 with
      | [], _, h2 => exact absurd rfl h2
      | [k], h1, _ => exact absurd rfl (h1 k)
      | _ :: _ :: _, _, _ => simp
    · rw [← hks, List.mem_filter, suffix_iff]
      simp only [List.append_assoc]

/-- C348: a pair of parentheses at the end of a name is ignored. -/
theorem C348_parentheses (docs : List Str) (n : Str) (h : ¬ ∃ m, n = m ++ lit "()") : man docs (n ++ lit "()") = man docs n := by
  have h1 : trimSuffix (n ++ lit "()") (lit "()") = n := by
    unfold trimSuffix hasSuffix; simp
  have h2 : trimSuffix n (lit "()") = n := by
    unfold trimSuffix
    rw [if_neg]
    intro hs
    exact h ((suffix_iff _ _).1 hs)
  unfold man
  rw [h1, h2]

/-- C348: a name without documentation is one that no table has. -/
theorem C348_nothing (docs : List Str) (n : Str) (h : man docs n = .nothing) (hp : ¬ ∃ m, n = m ++ lit "()") :
    n ∉ builtins ∧ n ∉ docs ∧ (∀ m, m ++ lit "." ++ n ∉ docs) ∧ n ∉ lang ∧ n ++ lit "_type" ∉ lang ∧ (∀ a ∈ aliases, a.1 ≠ n) ∧
      (∀ g ∈ modules, g.1 ≠ n) ∧ ∀ g ∈ categories, g.1 ≠ n := by
  have hal : (aliases.all fun a => lang.contains a.2) = true := by decide +kernel
  have hcat : categories.map (·.1) = [lit "keywords", lit "types", lit "symbols", lit "attributes"] := by decide +kernel
  have h2 : trimSuffix n (lit "()") = n := by
    unfold trimSuffix
    rw [if_neg]
    intro hs
    exact hp ((suffix_iff _ _).1 hs)
  unfold man at h
  rw [h2] at h
  unfold showName at h
  split at h
  · simp at h
  split at h
  · simp at h
  split at h
  · simp at h
  rename_i hc
  split at h
  · simp at h
  rename_i hm
  split at h
  · simp at h
  rename_i hb
  unfold showStdlib at h
  split at h
  · simp at h
  rename_i hd
  split at h
  · simp at h
  · rename_i hf
    unfold showLang at h
    split at h
    · simp at h
    rename_i hl
    split at h
    · simp at h
    rename_i ht
    rw [List.contains_iff_mem] at hb hd hl ht
    refine ⟨hb, hd, fun m hmem => ?_, hl, ht, fun a ha hn => ?_, fun g hg hn => hm ?_, fun g hg hn => hc ?_⟩
    · have := (List.filter_eq_nil_iff.1 hf) _ hmem
      exact this (by unfold hasSuffix; simp [List.append_assoc])
    · split at h
      · rename_i b hb'
        rw [if_pos (List.all_eq_true.1 hal b (List.mem_of_find?_eq_some hb'))] at h
        simp at h
      · rename_i hnone
        exact List.find?_eq_none.1 hnone a ha (by rw [hn]; exact beq_self_eq_true _)
    · exact List.any_eq_true.2 ⟨g, hg, by rw [hn]; exact beq_self_eq_true _⟩
    · have : g.1 ∈ categories.map (·.1) := List.mem_map_of_mem hg
      rw [hcat, hn] at this
      simp only [List.mem_cons, List.not_mem_nil, or_false] at this
      simp only [Bool.or_eq_true, beq_iff_eq]
      rcases this with h | h | h | h <;> simp [h]
  · simp at h

example : man stdlib (lit "nonsense") = .nothing := by decide +kernel
example : man stdlib (lit "pointer") = .lang (lit "^") := by decide +kernel

end Verif.Props
