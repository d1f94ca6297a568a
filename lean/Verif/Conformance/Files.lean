import Verif.Conformance.Basic
import Verif.Model.FileCache
import Verif.Model.Fs

/-! # Unit tests of `src/fs`, run on the model

`write_then_read_single` and `write_then_read_multi` (`single_file_rw.rs:125-141`, `multi_file_rw.rs:206-222`) are not
repeated: `C50_write_succeeds`, `C50_read_back_partial`, `C52_write_succeeds_partial` and
`C52_read_back_partial` state for every torrent what they try on one. -/

namespace Nargun.Conformance

open Spec (ascii)

/-! ## `file_cache.rs` -/

/-- `file_cache.rs:118-161` `rw`: what is written at offset 33 of a new file is read there, zeros are read before it, and
one entry is cached. -/
example :
    let p := ascii "tmp1/a"
    let data := bytes [1, 2, 3, 4, 5, 6, 7, 8, 9, 0]
    let c1 := FileCache.getWrite (fun _ => true) (.still 1000) p []
    let c2 := FileCache.getRead (fun _ => true) (.still 1001) p c1.1
    let d1 := (openFile (fun _ => true) p [] ).1
    let d2 := (writeAll p 33 data d1).1
    c1.2 = .ok () ∧ c2.2 = .ok () ∧ c2.1.length = 1 ∧
      (readExact p 0 5 d2).2 = .ok (bytes [0, 0, 0, 0, 0]) ∧
      (readExact p 33 5 d2).2 = .ok (bytes [1, 2, 3, 4, 5]) := by decide +kernel

/-- Calls of `get_write` one nanosecond apart. -/
def getWrites : Nat → List Bytes → FileCache → FileCache
  | _, [], c => c
  | now, p :: ps, c => getWrites (now + 1) ps (FileCache.getWrite (fun _ => true) (.still now) p c).1

/-- `file_cache.rs:163-191` `evict`. -/
example :
    let files := (List.range FILE_CACHE_SIZE).map fun k => ascii "tmp2/f" ++ bytes [65 + k]
    let extra := ascii "tmp2/extra"
    let c := getWrites 1000 (files ++ [extra]) []
    c.contains extra = true ∧ (∀ f ∈ files.drop 1, c.contains f = true) ∧
      c.contains (files.headD []) = false := by decide +kernel

/-! ## `multi_file_iter.rs` -/

/-- The lengths of the files of `resources/Isaac_Asimov_Collection.torrent`, in order. -/
def asimovLengths : List Nat := [
  0, 193511188, 79743610, 76820196, 58139296, 64330945, 111587102, 99806899, 79541738, 63609370, 63204961,
  54358868, 53715002, 70561486, 54113104, 87767816, 75229690, 46504577, 81599983, 73194634, 66102062, 9285380,
  47911078, 3464002, 45232795, 48113788, 46651349, 2076420, 43986023, 2544952, 66384874, 55290983, 60886621,
  62596910, 848874, 791613, 7336448, 914336, 5431760, 34555904, 18141632, 962288, 5935904, 16411904, 7617248,
  631376, 25241552, 38252096, 51720560, 9082592, 9757376, 39058640, 876752, 30285152, 29467808, 29626784, 525968,
  5584256, 35821664, 36108080, 36590624, 871568, 35664416, 29422880, 28062944, 65382992, 50371856, 53024336,
  43438256, 43192016, 45018944, 43159184, 758816, 43567424, 73716272, 720800, 2256481, 10791663, 30337081,
  6837423, 41746115, 46548197, 20735521, 15680177, 6339599, 3369922, 53839990, 18318442, 15680936, 14889146,
  6480696, 5391854, 11099648, 17244042, 46622142, 23191226, 5236906, 8537974, 31255800, 249502, 3568658,
  17737740, 15922530, 8659544, 21105364, 20763988, 19160210, 19165018, 24704408, 28423083, 25861043, 23916461,
  40577073, 9470359, 9246293, 5726181, 16634081, 15664467, 37727009, 7910393, 5787055, 2438569, 2471403, 2529391,
  2649587, 2592945, 5630569, 12324475, 2768429, 2583535, 2600629, 4406555, 4388913, 6829423, 5760173, 5332595,
  226511, 14643720, 12900132, 10887660, 11972016, 12578832, 14161392, 14391972, 14387940, 12234852, 12440232,
  12775140, 11241720, 15920604, 17994312, 12843684, 12469212, 34463494, 40886254, 25896684, 40021472, 34859752,
  23184226, 41822667, 34974310, 42784912, 39720542, 38963808, 38260184, 43841410, 38519348, 32563584, 38277955,
  33536388, 45964992, 32196275, 15299419, 14304058, 13629250, 10096241, 9911718, 13392899, 11169823, 12580433,
  10148956, 12472397, 11529059, 13000273, 9375280, 9743072, 15061816, 11386072, 13125401, 16873878, 2994,
  27024788, 21770324, 27722894, 19455196, 21044768, 16657930, 24733650, 17989084, 27236558, 25997787, 18749783,
  20494893, 27861539, 26160971, 22991639, 21407243, 24657235, 25847831, 3037829, 40423548, 40220169, 40382755,
  40250262, 40274336, 40207839, 40420998, 40159774, 40461164, 40281609, 12255356, 4927, 19017615, 17742853,
  23549570, 16800325, 15078775, 16364837, 21081511, 17584018, 26862724, 24030184, 23280385, 21838430, 21723495,
  10622497, 13784774, 20718277, 19510799, 17627925, 17530084, 22911309, 20072946, 22484571, 6690355, 22638005,
  22459537, 22637170, 22291099, 24263031, 24798854, 23137885, 21344422, 28431338, 26409669, 27237228, 28313891,
  22765065, 25815331, 25006998, 26482394, 23798260, 25953258, 5829777, 15116165, 13559163, 19600031, 15844668,
  20231986, 12945703, 15129331, 16807646, 17112338, 14961938, 22096502, 14272306, 16693230, 16390105, 16142464,
  17453393, 19435773, 15783228, 15831502, 19425742, 12317511, 4425292, 21223823, 9208, 4993984, 52607894,
  43320841, 34650696, 47754134, 51689220, 35064057, 44220289, 42951365, 42755342, 42445634, 51484838, 52490030,
  58447620, 47328234, 40145605, 39753977, 48195081, 41624763, 42935901, 10084459, 10576397, 10500433, 10556440,
  10460413, 10492387, 10480475, 10252479, 10472430, 10528436, 10488417, 10620387, 10588413, 10632404, 10596459,
  9744449, 10484446, 10532407, 10544423, 10652466, 10528436, 10556440, 1904475, 72231792, 84187096, 127617235,
  49362319, 164828559, 2382955, 12006257, 6594312, 8052989, 8249639, 14512549, 5078165, 16816966, 10068806,
  9061106, 5746691, 15392562, 10225750, 10251455, 11938129, 9209065, 11105555, 11995180, 8293107, 12087758,
  11962997, 12215653, 16556160, 4999589, 9650010, 15337809, 14831451, 2413046, 21535723, 15131751, 10274232,
  10695116, 15313565, 19590331, 15889722, 14461973, 15552847, 4242870, 11210877, 7626459, 7637954, 14978989,
  13140595, 13880801, 4430744, 8414940, 11551721, 17170975, 13618322, 7792598, 5747439, 44019961, 36049062,
  50189875, 36544343, 48918025, 40328964, 37791534, 45119194, 27161578, 62707334, 28241166, 65784768, 59277561,
  54368631, 32207181, 57609904, 71867746, 46003596, 47407938, 41111383, 3639671, 14726205, 41095668, 44240811,
  44102884, 32237441, 49418071, 39849314, 47999647, 37690973, 44945908, 41999296, 45430741, 46564664, 36954529,
  41740161, 43459227, 32671701, 44809653, 56300187, 43756396, 33923489, 38279041, 82827, 1050, 7212860, 7233980,
  7220397, 7217053, 7270311, 7296432, 7300854, 7237919, 7255055, 7226458, 7259443, 7259653, 7227470, 7293925,
  7230605, 7261325, 7260906, 7322556, 7230396, 7220782, 7232904, 7215798, 7262193, 7264459, 7317750, 7218275,
  7228096, 7233354, 7218066, 7213259, 7241054, 7248818, 7258431, 7225830, 7248400, 7243562, 7248159, 7220364,
  7253624, 7230605, 7316704, 7222905, 7226039, 7266758, 7282640, 7396326, 7236906, 7240877, 7351427, 7254878,
  7217230, 7295598, 7267594, 7312733, 7255892, 7224994, 7274731, 7248609, 7310644, 7213468, 7258817, 7307718,
  7329243, 7227261, 7351863, 7811, 83974, 1091, 6742584, 6956351, 6735669, 6774539, 6738804, 6780776, 6780359,
  6794569, 6756744, 6783493, 6774508, 6737967, 6847056, 6762418, 6848518, 6786033, 6778928, 6764476, 6741906,
  6842008, 6806481, 6774507, 6791644, 6743159, 6750298, 6798363, 6788718, 6786001, 6746118, 6770150, 6762418,
  6744028, 6794393, 6740057, 6768688, 6760746, 6754060, 6752596, 6871506, 6757612, 6872342, 6789762, 6883803,
  6740235, 6769074, 6789344, 6749468, 6811358, 6753020, 6842464, 6060462, 6440086, 34022057, 40219557, 32453040,
  54220768, 34662790, 25029249, 2860270, 34628064, 33970235, 31199987, 34858378, 7950170, 63255777, 29500412,
  272663, 9405, 2964060, 2688746, 9012098, 5782644, 9365562, 8435116, 12089838, 10761776, 12814652, 10241081,
  12594219, 15977475, 10688047, 10420607, 12279745, 11584337, 11930689, 12943675, 13740833, 17156145, 1505073,
  2824, 2461609, 80847688, 42184352, 40410561, 154519658, 19085060, 6632, 2983547, 7028988, 81498, 12475854,
  16605482, 15786712, 16708308, 18427153, 16182505, 15645891, 16662320, 17154893, 15065300, 11834123, 85887,
  16099960, 14980038, 13129538, 14447568, 14764170, 11384552, 83995, 15678253, 15961233, 4688470, 97745, 1005,
  936, 8547770, 17518393, 9708920, 9227841, 69490095, 527, 53501204, 274, 44094653, 504, 32785099, 65517989,
  18178485, 45108912, 911, 41960408, 2816, 4020, 1860338, 9238605, 24734826, 10530915, 25608365, 14875601,
  20361938, 24117504, 6227422, 37180824, 26926613, 10423714, 24176440, 7135836, 26781159, 11774546, 18444545,
  22663007, 12153627, 6171202, 64136168, 37210455, 28849536, 63857617, 599, 1130760, 27273236, 1370536, 2208612,
  17783512, 1906652, 5820360, 1567960, 4578792, 2924437, 847403, 4823519, 8353165, 2511895, 3348255, 28234655,
  3474603, 5790343, 2624459, 3169591, 1122381, 14029447, 3441119, 3732727, 3931001, 3829065, 4004001, 3993847,
  3936629, 3810933, 3954151, 3679169, 3993671, 3991045, 3783463, 4228639, 3921049, 3841567, 3296813, 2783625,
  3257497, 3832959, 3960793, 3604189, 3274359, 3729493, 3689289, 3616705, 3864467, 3670713, 3859715, 3659053,
  3853019, 3645435, 75597, 764, 2266871, 58920942, 17150727, 43769595, 39716313, 42030843, 29589453, 13840445,
  19545719, 8642232, 11910094, 24788704, 15678856, 2248092, 16935132, 9822114, 16752940, 7529446, 4856024,
  4648856, 6588234, 108020, 12053, 1859454, 1571415, 1451337, 87971385, 15131464, 40979200, 20687414, 25775315,
  25152182, 23015254, 20891483, 62987291, 575191, 6998, 1224544, 1800584, 10136612, 11568574, 16240708, 16168494,
  15384376, 14683366, 2696440, 16928649, 43576701, 216733, 12705, 12245505, 33597837, 75328443, 74832503,
  91123527, 41980345, 5745353, 27572299, 100481219, 55082632, 32077184, 43390988, 32203084, 365861, 7793, 558511,
  2298580, 14722712, 14385802, 16950139, 21223823, 22319869, 23314194, 7540101, 17658736, 45124140, 9112777,
  15212421, 19529051, 11579938, 15112424, 13524388, 31139017, 12385554, 1325100, 6026514, 14443951, 16958445,
  5351928, 3680509, 5789531, 24489391, 18510119, 3718752, 2690886, 17914684, 6600006, 12600281, 14342857,
  4041156, 24525753, 18897254, 8934413, 31331017, 6674142, 8014850, 13582067, 17627, 2508865, 598753, 1198527,
  7255670, 33633347, 2110072, 11852152, 9137087, 14558604, 20506590, 1579423, 19684656, 7691240, 14673452,
  8608635, 3607494, 30085208, 10912094, 5916067, 8789673, 1508099, 22176643, 15909946, 1208040, 459765, 698, 942,
  40175978, 40098752, 40145049, 40056956, 27889537, 2310649, 11052581, 8066469, 8359680, 8924646, 10854778,
  10734727, 9511666, 10230782, 12726926, 9744480, 12397584, 11357601, 11624868, 11125407, 11168252, 9166016,
  11090090, 10475173, 11071502, 865, 4491414, 4072603, 4194229, 3174407, 4023103, 2220415, 4574779, 7189748,
  2319473, 7135614, 2776303, 6277335, 5724592, 1675612, 3669277, 1968392, 2682892, 2484150, 4036241, 2649644,
  5568267, 1917397, 3120921, 2685602, 1205828, 7346896, 5531908, 13656824, 4209283, 2836279, 5866483, 11939229,
  2061171, 2612048, 2480400, 5591052, 3057594, 3646703, 8226909, 4659210, 2896266, 1457015, 3357480, 700718,
  1134130, 781788, 15011225, 3971878, 2343300, 4996286, 3128227, 5504956, 1863909, 2305898, 2236945, 2529517,
  1379293, 7387862, 589549, 1717358, 1111, 5166033, 2016663, 10434899, 12173267, 4817553, 12578001, 4362317,
  8671381, 8412381, 7363664, 10360020, 6308058, 2941712, 8576912, 18548430, 9311700, 6153490, 10364826, 7665104,
  10767454, 7177624, 13255568, 11602072, 3445526, 12178840, 8575574, 12761940, 8414098, 8316174, 9941268,
  7700816, 3780954, 13575630, 10259022, 10337934, 11365328, 20800602, 27025620, 1299158, 18823553, 18133610,
  15308196, 17281234, 16473522, 16411626, 18342083, 15940102, 15346869, 16692435, 16698188, 18013743, 15165098,
  20041351, 15223349, 14310876, 15488733, 17059751, 789, 2041347, 7385582, 1026566, 9916743, 4814088, 853740,
  11364763, 11068429, 4624986, 9267861, 6185621, 4505425, 4377948, 7146104, 10028977, 7456020, 8345437, 17524030,
  6866698, 14143158, 11764344, 5259018, 4830610, 2944778, 618626, 4608882, 10777124, 2767145, 4095628, 6260030,
  535874, 4440222, 5158694, 12564094, 17335307, 3452375, 11185665, 7501773, 2669329, 1428826, 15971507, 6212369,
  17748042, 1058096, 9185103, 2033613, 9601600, 4082240, 9652800, 2116578, 729]

/-- The files of that torrent; the position of a file stands for its name.  Files 19 and 20 are `Robots of Dawn 18.mp3`
and `Robots of Dawn 19.mp3`. -/
def asimovFiles : Nat → List Nat → List TorrentFile
  | _, [] => []
  | k, n :: ns => ⟨[[BitVec.ofNat 8 k]], n⟩ :: asimovFiles (k + 1) ns

/-- `multi_file_iter.rs:91-99` `get_files`. -/
def asimov : List TorrentFile := asimovFiles 0 asimovLengths

/-- `ROBOTS_OF_DAWN_19_START`. -/
def dawn19 : Nat := 1487340465

/-- `ROBBIE_START`. -/
def robbie : Nat := 1562727907

/-- How many files the iterator yields. -/
def countFiles (a b : Nat) : Res Nat := do
  let l ← filesInBounds asimov a b
  .ok l.length

/-- The first file the iterator yields. -/
def firstFile (a b : Nat) : Res (Option (List Bytes)) := do
  let l ← filesInBounds asimov a b
  .ok (l.head?.map (·.file.path))

/-- `multi_file_iter.rs:101-138` `seems_alright`. -/
example : firstFile (dawn19 - 1) (robbie + 2 ^ 10) = .ok (some [bytes [19]]) ∧
    firstFile dawn19 (robbie + 2 ^ 10) = .ok (some [bytes [20]]) ∧
    countFiles dawn19 (robbie + 2 ^ 10) = .ok 3 ∧
    countFiles dawn19 (2 ^ 64 - 1) = .ok (1055 - 20) ∧
    countFiles 0 (2 ^ 64 - 1) = .ok 1055 := by decide +kernel

end Nargun.Conformance
