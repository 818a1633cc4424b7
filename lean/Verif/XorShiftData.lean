/-!
Powers of the matrix of `xorshift32` (driver/driver.cpp:18-24), as lists of columns.  Nothing is assumed
about these numbers: `Verif/XorShift.lean` checks them.
-/
namespace Ccml.XorShift

/-- Each is the square of the one before. -/
def chain16 : List (List Nat) := [
    [270369, 540738, 1081476, 2162952, 4325937, 8651874, 17303748, 34607496, 69214992, 138429984, 276859968,
   553719936, 1107439872, 2214879744, 134792192, 269584384, 539168768, 1078337569, 2156675138, 17301636,
   34603272, 69206544, 138413088, 276826176, 553652352, 1107304704, 2214609408, 134251520, 268503040,
   537006080, 1074012160, 2148024320],
    [67634689, 134253570, 268507140, 537014280, 1082410067, 2164820134, 33657164, 67314328, 134628625,
   269257250, 538514500, 1077029000, 2154058033, 13148770, 26297540, 52595080, 105190193, 201982464,
   402949120, 570982664, 1141965328, 2283930625, 272893954, 545787908, 1091575816, 2183151632, 71335968,
   143753280, 287506560, 575013153, 1150026306, 2299036804],
    [307599695, 1670953222, 3341906444, 2397225082, 319134170, 873118396, 1025996745, 2051993490, 1906135427,
   4047186446, 4033305909, 3763248681, 1159566999, 2318118190, 340253309, 672108696, 3582921717, 853477706,
   579705100, 2840083624, 1376804146, 564138112, 1364273160, 2963527960, 1632088624, 3256860674, 2519632140,
   1802410401, 3596424992, 690619525, 1078263810, 3585606292],
    [435756210, 1401905590, 1697498707, 3547356631, 3352315571, 269536975, 4150475801, 3526844150, 1237866846,
   2272314079, 488875096, 1881247329, 143629668, 3466619717, 4252056148, 2758445570, 3172328787, 2744195457,
   2966341661, 287003857, 1919864327, 3862758952, 3306563744, 704483438, 2913576773, 918014814, 1063325072,
   3361898166, 1263308096, 3329840018, 2240676853, 2178132162],
    [3385103793, 2319215614, 2454672506, 2577523135, 369380136, 1395957656, 3066830330, 2550469481, 79939214,
   3022887315, 2104869307, 3808539356, 1421860418, 215361280, 1534239292, 3923653138, 2423021697, 3231327342,
   2735191073, 2293528455, 2203147867, 441612868, 2332191588, 1770953885, 1277702289, 2783203772, 1312514326,
   2935797620, 3320995912, 2381216182, 2019212487, 3226200547],
    [3412600852, 2541978743, 3267611380, 726103525, 1327682841, 3929756744, 484167457, 3387071820, 2657277780,
   4038817380, 213931672, 2061930371, 2296467662, 600462889, 939035703, 765699354, 3107936457, 258572009,
   27918708, 3121557168, 4005364440, 1989652064, 874358065, 4210679491, 366433236, 3384422562, 556276592,
   1160105741, 2044627538, 1590473236, 242903050, 2364317968],
    [932611783, 1112633538, 293301608, 2092790739, 1626439503, 1089671212, 304349903, 3710350611, 1962927266,
   2676322310, 1141665338, 3004361202, 3701626548, 2958364533, 1445077629, 2047030602, 2654796853, 1018803288,
   3384549630, 3812526678, 1346575954, 475416564, 413633881, 3775956818, 1402776769, 446708853, 2728349981,
   3570340208, 2391483936, 1417713861, 1727404288, 874413637],
    [2144056621, 487143145, 2212672375, 3633086063, 897363196, 2152094435, 155619899, 2446392000, 607790101,
   1519826227, 2129220609, 1025148785, 3600508955, 4192082447, 923478855, 2698711050, 30775937, 550263549,
   587192091, 1645339894, 3605157420, 1108659412, 203899345, 3762720645, 4283289808, 847287177, 2276775528,
   2503419660, 3546957393, 1471151888, 3517018178, 1483442760],
    [1424859452, 3922555886, 3077650115, 3736641067, 1211620788, 2859566781, 1204616573, 155227985,
   1213393187, 2472456456, 1482978665, 2652730614, 3871728631, 3043971450, 3753551402, 1699866935, 422772876,
   1949668710, 2993884290, 3222912591, 2146079826, 3977772465, 2455852207, 537683947, 1945931418, 1752727032,
   1894111692, 3323811086, 3406204307, 1000453137, 174803162, 2354738828],
    [2521350846, 3802180557, 1695520370, 4261773995, 260854674, 2021146481, 1590253937, 2087332172,
   2605883282, 387826585, 834402785, 2876062192, 3459482177, 4230770990, 1620508176, 4155987782, 3784676791,
   2469881118, 1609269104, 3490216109, 2166409130, 9108845, 1604482071, 655588518, 4123432144, 1192982995,
   2748465240, 592625376, 2328074338, 2337494883, 207954636, 1151794917],
    [1460585410, 2689242779, 4175177587, 1591941054, 687970697, 3142909193, 704574833, 2561809752, 2885974985,
   1952427887, 2849498141, 945006758, 1417387580, 2394097064, 3399540462, 429640382, 2802796427, 2418948945,
   55013434, 3804022835, 2206770367, 3949319368, 2097944013, 574368727, 2386221622, 93397496, 3629684952,
   1719895086, 2080694516, 939604186, 860769110, 3315317504],
    [1997206952, 2054732979, 1522564929, 1578201517, 1063219072, 2901127500, 1983244756, 839150883, 147319353,
   2590721254, 3516060900, 1059628961, 3409903922, 2079836495, 845705297, 1932609914, 4069168629, 1310606538,
   3193258556, 3994454002, 3956511853, 3504721982, 3078944639, 1307093886, 1696685526, 261386107, 1131902967,
   3472287837, 1285178774, 32954428, 2981546635, 4156924947],
    [2636821258, 3734891631, 967519728, 20122474, 492130025, 3127096689, 3946837501, 4074137816, 320433845,
   1682326995, 1845734150, 917943464, 3571084428, 2451758096, 2001705394, 2612818917, 1920946760, 1167049327,
   391289124, 1140457767, 2389985911, 197403762, 1046179363, 2749566774, 4035296711, 2083633922, 349795967,
   3393235512, 4242155223, 1981484266, 3697279565, 2132234218],
    [3587563677, 4199715749, 192433200, 2380168098, 1944845204, 817173822, 3104630724, 3267527965, 3881839471,
   2675612952, 2422343777, 1818649476, 693887339, 3430867902, 1920697494, 4129392662, 3757888778, 1514231824,
   2014768547, 2647613825, 1655481748, 2729165264, 3422948839, 1272880714, 442891794, 1036482722, 3332282564,
   3593903298, 72466539, 3769036421, 2657147096, 2396771245],
    [552723936, 1626133020, 2910524297, 1442683780, 2942707583, 2838979761, 2471259248, 1365131241,
   2266412974, 1277454467, 2389505538, 758207405, 512358028, 2128356395, 1969433287, 1791237812, 745084033,
   647485907, 1659516540, 696865408, 3097618264, 3382855721, 1453634213, 1201451234, 2908700684, 1733607855,
   3198296303, 2936080747, 410129245, 201998250, 2379534293, 716007707],
    [1132257473, 147708899, 1868748051, 4009830904, 812676862, 3485674144, 3639388481, 2904266047, 2366907605,
   15912272, 1432990985, 1834670081, 949731876, 1103532042, 789896438, 836589710, 1711632420, 3300202392,
   4270332792, 985139983, 2121353521, 2313661710, 2480077534, 1283159288, 3089523104, 2715506118, 1307123757,
   1423616685, 2275791218, 3690928178, 3390316430, 913645104],
    [437906867, 506273532, 1246454606, 2241393224, 958817800, 3472911366, 3064280302, 1337743425, 1789918472,
   2952294299, 3262575055, 2871278968, 471368716, 2032964697, 2822943001, 3102833472, 2478598240, 9866905,
   2120828680, 56646574, 1601371120, 2641177728, 173376804, 1225692501, 204540805, 2983620998, 753404461,
   3824765745, 3148149924, 3672362573, 560093186, 3007903540]]

/-- Undoes the sum of the first and the last of `chain16`. -/
def undo16 : List Nat :=
  [3908455207, 1269210685, 4230444939, 3445514380, 977471560, 478053426, 1403726630, 3920167479, 4259196828,
   1141860469, 2042332397, 67291395, 4145823888, 1547246068, 1344483642, 1489834806, 942278809, 464277749,
   3144945871, 3697391500, 89564266, 538550978, 2741397392, 2505068165, 1903679604, 3749508893, 3257480797,
   1539128405, 3463255237, 2862100123, 216681703, 2931494590]

/-- Each is the square of the one before. -/
def chain8 : List (List Nat) := [
    [3529265892, 61522085, 3799301055, 3789966240, 1225032603, 2459526534, 388457138, 1379359099, 886589039,
   3814755678, 2511135464, 3186511005, 2679720512, 2673864906, 844901129, 1690247436, 3367796792, 4194107739,
   2273699276, 178678564, 26445110, 660287294, 3839513564, 4012599399, 2239109509, 2201436373, 2551849883,
   2575221182, 2201788860, 3329082584, 640125779, 409607555],
    [760489564, 2601495509, 1799475159, 3072338887, 630087576, 2338170754, 1218165176, 1851363944, 3469062787,
   467562303, 3755617774, 1371464982, 3967788609, 872537704, 1757352849, 2781144910, 3174537048, 1431947851,
   141164357, 469344499, 2768727355, 1033421207, 3973597012, 1164481936, 3455896140, 2152198260, 2468653618,
   3661353429, 4039162083, 2378407091, 3454220751, 712646655],
    [166160059, 3875394075, 3458025744, 4278379902, 4092770819, 886105690, 2437637142, 1089087718, 2353658051,
   3994431538, 3485167055, 1447324129, 2633157674, 2471025054, 3824541537, 2767643179, 843970628, 1108450710,
   3980503356, 1596882344, 2865866930, 2533688401, 1344345180, 1257335827, 1378129179, 3198810238, 1284064054,
   2360710112, 82488078, 1581862799, 348238894, 3094557956],
    [144296040, 1911596830, 853465504, 2390979180, 2207079192, 680208147, 4126821647, 2360781264, 1699466541,
   2810896867, 3002812991, 424493764, 3932417981, 974984777, 1783889756, 1014151897, 1973569642, 2227095460,
   419511760, 690025018, 1453706588, 1735668800, 3045863595, 3326017322, 1289362147, 3013874598, 2634505669,
   1867266048, 136592326, 3578168750, 3879430732, 4053358240],
    [3217796887, 211117553, 2604076111, 4225726140, 3689443536, 348879782, 2491037841, 3911865241, 2323849599,
   215973729, 3215348941, 1576439246, 2866272327, 2656988280, 3651310562, 31076471, 2674695482, 2669048074,
   3125990058, 3825493990, 1587780785, 1512550849, 2291201283, 2241849848, 3790854378, 2759795769, 2734129278,
   1943455507, 547961871, 1698313481, 4015965659, 2055153087],
    [1245277505, 1346517237, 2008834077, 4091225593, 2070745458, 938319568, 3948012286, 3237249760,
   3019967912, 1794953915, 1058917658, 2882422905, 2988590440, 1037153490, 794569168, 2398359357, 3106757623,
   629049584, 3585861866, 1753287648, 3052726338, 2233136269, 3089055515, 1687430272, 2844861891, 3309697967,
   1046947596, 278724756, 3297069765, 4082011132, 1889645186, 4053295048],
    [3607928599, 1473778831, 1529345355, 796985925, 4085367617, 2865693523, 4286441161, 1084694972,
   1695109896, 466283050, 2642987562, 2700164832, 676702614, 1583485256, 1936180788, 3943272758, 486397457,
   907176421, 4202986604, 665857849, 3839849421, 2173273693, 356748511, 2070659442, 1417947036, 4029362142,
   4040101450, 3721907573, 1326613387, 3807941873, 3833884264, 2846670269],
    [603639257, 1404685348, 3321658619, 3300135088, 3978775664, 229670361, 3752904628, 2552870463, 2466969250,
   3863069396, 842705551, 424027512, 3883983428, 1239250039, 3039164945, 503394629, 3125411599, 234895400,
   1441532846, 348041211, 1171323659, 2131973852, 3131870248, 2769227828, 2686394628, 518611242, 3634791232,
   3409769794, 3318101832, 477730052, 2943734323, 2598164546],
    [3287490977, 2909408707, 182423313, 3088145070, 2778583517, 3266780928, 2480412726, 2960756562,
   3966765577, 3445442232, 2798813301, 1557893719, 4101737111, 3336861582, 2681160021, 1981663592, 2829629930,
   1936509194, 2559398701, 3622582858, 1346128452, 118971329, 4051820288, 3387695974, 692398865, 4089275357,
   240746386, 330480709, 4218935393, 1703527318, 2117236132, 1208336344]]

/-- Undoes the sum of the first and the last of `chain8`. -/
def undo8 : List Nat :=
  [3131369381, 539281936, 2338768093, 2808948640, 4140594694, 267135013, 2909932981, 3761283052, 4279047950,
   4001396503, 4220324335, 3917003109, 2753609505, 3196128043, 2300815984, 649863395, 2216584151, 526453558,
   3885171078, 2445356822, 1639879313, 2898507925, 3422031783, 1230340248, 3401736640, 4155450808, 359687001,
   3020222700, 3703983891, 3614192656, 3325989673, 1218513770]

/-- Each is the square of the one before. -/
def chain4 : List (List Nat) := [
    [2634090476, 3803411956, 2891228506, 1050087578, 1209277511, 2719899585, 2244455196, 2617184235,
   1449300350, 911541555, 2929215803, 3762139845, 141807725, 2901333324, 1131370094, 2279230204, 1560637606,
   369938079, 2442556979, 698369332, 2540781000, 2045973658, 4015859567, 2940965715, 534219986, 1447062528,
   1893298564, 3732374978, 3013848873, 2879493664, 2399426002, 2251366953],
    [967055026, 3111796930, 2831005979, 99967345, 1197722662, 2754368242, 39826422, 742919751, 1558853972,
   3882275172, 2600178481, 2472200071, 1887223752, 936974103, 662369577, 2755789321, 3518584625, 2949887873,
   2137143612, 1098018830, 3438524673, 438282504, 1885050742, 446871392, 612533765, 1413986508, 3003103293,
   445891865, 1312520886, 2226630446, 4159165324, 2283601553],
    [4041120796, 2222989503, 3686826734, 273580240, 511804171, 1578758554, 744597347, 3641306173, 3932359240,
   585342375, 3198649540, 1116683803, 3756262089, 8129216, 2490022273, 3135991762, 3848136830, 3676218071,
   3863469236, 2934743081, 1819169, 3585645916, 3141905126, 3412237913, 3422550023, 2308069239, 3987093253,
   2530152210, 672904332, 1712151435, 3479918614, 414827845],
    [912591985, 406865640, 658233138, 1374250919, 3802425733, 371004103, 1548886075, 1079319650, 2726258593,
   797512144, 1215230620, 2159097605, 2987262426, 3007930852, 574836769, 3004516319, 3467370501, 1690737531,
   4189513814, 1701162132, 839978707, 3818355722, 345557559, 3743931035, 3423911627, 2871037731, 2691399294,
   4243627444, 2837803300, 473708030, 1480880903, 2526991267],
    [672242040, 1595596019, 3486806072, 3042425593, 1578103550, 1251580821, 3616115182, 1628311527,
   3869071824, 3181920881, 3222611029, 2199233652, 1707594961, 3853619199, 3118220505, 3201805, 4187492463,
   1772562992, 4225074453, 2774301013, 3579047459, 2840409883, 1121230916, 3175187624, 1864976164, 1022728802,
   2962149080, 3305976302, 3734053680, 3583107216, 1196647987, 4145052738]]

/-- Undoes the sum of the first and the last of `chain4`. -/
def undo4 : List Nat :=
  [3608027046, 2057370212, 2610076923, 4043652343, 3846820934, 2796628506, 2783296768, 3558535551, 4067101805,
   1470373218, 2888287548, 3530646253, 2018605066, 1633539020, 680466512, 2911662345, 64376613, 2041488413,
   2604828875, 799999462, 733649872, 2237497157, 2635225059, 3005642506, 1296074733, 1208023802, 1270628254,
   3181471313, 26516526, 186065355, 1738251950, 1898681397]

/-- Each is the square of the one before. -/
def chain2 : List (List Nat) := [
    [3608027046, 2057370212, 2610076923, 4043652343, 3846820934, 2796628506, 2783296768, 3558535551,
   4067101805, 1470373218, 2888287548, 3530646253, 2018605066, 1633539020, 680466512, 2911662345, 64376613,
   2041488413, 2604828875, 799999462, 733649872, 2237497157, 2635225059, 3005642506, 1296074733, 1208023802,
   1270628254, 3181471313, 26516526, 186065355, 1738251950, 1898681397],
    [2764738082, 803078494, 3964378718, 2860920944, 3214049779, 3992130230, 2004935868, 1852005216,
   3643802781, 139624005, 442896095, 463904557, 227594724, 1672141468, 562636068, 591990097, 4212780337,
   1592258461, 2118870541, 1754571490, 3471043121, 1965496680, 3122716218, 2862065250, 2405919642, 2051158367,
   2510813459, 3500922298, 1402158428, 3422792078, 1904790869, 2253161475],
    [299503799, 2457315419, 2412464952, 558275099, 2844356442, 91543234, 634308110, 2492619756, 1775226163,
   2209299207, 1961584561, 2022605212, 1613022552, 720740399, 3678042003, 2762153120, 1602588152, 558762802,
   336368939, 3831537283, 2362522074, 2780379881, 401168657, 3088953753, 4271480940, 318228285, 1374701135,
   3285279126, 782348613, 2452873022, 4192206516, 2003688040]]

/-- Undoes the sum of the first and the last of `chain2`. -/
def undo2 : List Nat :=
  [3335786256, 3906425405, 341432263, 3494094564, 1287699212, 2747661560, 2150333262, 1082698259, 2611265630,
   3557500005, 3637290637, 2868898673, 410365266, 1269322723, 4088737731, 154135977, 1548927709, 1491250991,
   2403999200, 3418856293, 2809897482, 549733804, 2327514866, 196855443, 3000575873, 1492598215, 508328401,
   1987053511, 1060449643, 3106209525, 3729023002, 2252754525]

/-- Each is the square of the one before. -/
def chain1 : List (List Nat) := [
    [3335786257, 3906425407, 341432259, 3494094572, 1287699228, 2747661528, 2150333198, 1082698387,
   2611265886, 3557500517, 3637289613, 2868896625, 410369362, 1269330915, 4088754115, 154103209, 1548993245,
   1491119919, 2404261344, 3419380581, 2808848906, 551830956, 2331709170, 188466835, 3017353089, 1526152647,
   441219537, 2121271239, 792014187, 2569338613, 2655281178, 105270877],
    [3335786256, 3906425405, 341432263, 3494094564, 1287699212, 2747661560, 2150333262, 1082698259,
   2611265630, 3557500005, 3637290637, 2868898673, 410365266, 1269322723, 4088737731, 154135977, 1548927709,
   1491250991, 2403999200, 3418856293, 2809897482, 549733804, 2327514866, 196855443, 3000575873, 1492598215,
   508328401, 1987053511, 1060449643, 3106209525, 3729023002, 2252754525]]

/-- Undoes the sum of the first and the last of `chain1`. -/
def undo1 : List Nat :=
  [1, 2, 4, 8, 16, 32, 64, 128, 256, 512, 1024, 2048, 4096, 8192, 16384, 32768, 65536, 131072, 262144, 524288,
   1048576, 2097152, 4194304, 8388608, 16777216, 33554432, 67108864, 134217728, 268435456, 536870912,
   1073741824, 2147483648]

end Ccml.XorShift
