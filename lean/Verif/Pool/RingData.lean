import Verif.Lemmas.RingEval
/-! The points of a few servers under the real SHA-1, as literals checked by the kernel
(generated by tools/ringdata.py). -/

namespace Verif
namespace Pool

set_option maxRecDepth 100000

/-- SHA-1 points of the server named "a". (Computed from client/ring.go:28-34.) -/
def hashes_a : List Nat := [
  265014423, 751984052, 1574390774, 2818736078, 1453802615, 1192643539, 67546781, 614623041,
  1497770771, 590170300, 358290437, 3654197345, 2611752715, 2977603735, 1047628261, 3756724962,
  3104187777, 773826665, 2810160769, 2055156995, 2508566686, 3554649637, 3587324785, 1963654777,
  3901178034, 1478402087, 2767296065, 962286534, 3907285109, 479500354, 619632924, 3031470898,
  1944342767, 3960868609, 340503135, 2301896645, 3307394839, 2129165858, 1921309460, 3558471853,
  281443486, 296361005, 1083069235, 2355609295, 957909410, 3833035147, 3596896106, 3796289583,
  2974614070, 3154319942, 3049162098, 4111092522, 1202355075, 585739115, 1162161232, 1144617955,
  1457702894, 1857726648, 1450995937, 4520487, 2386857856, 1003659486, 347867470, 1662081301,
  1534506563, 1215981741, 439077657, 2345921596, 2897566076, 3212082951, 2466707571, 92209449,
  3087175974, 149771107, 144297712, 391737672, 174828824, 3107421895, 2901009755, 3481168917,
  288738056, 2396990110, 2674961335, 1848178957, 2094093930, 816276324, 4203323893, 3486734512,
  3403386806, 1333448261, 858730637, 1955102673, 3678708736, 1877671872, 317769706, 2356797063,
  4227813066, 1518284689, 1435088037, 725808609, 1961234625, 2024326073, 3672702654, 4092796989,
  781884133, 1113774420, 1619847421, 4062784589, 2991175909, 311941726, 4089402969, 1247796685,
  1649952045, 1966519853, 2667247515, 3779113383, 630107994, 366516381, 3690942734, 3403017652,
  2514331603, 615852610, 3954358304, 474819231, 346370480, 3380029594, 1853460258, 3293875723,
  307810892, 1372900427, 548855807, 913079525, 1103452967, 4100413174, 2823133312, 1230079624,
  2875317485, 4019526057, 959498775, 1864443088, 427905292, 108105744, 3768295807, 2616413878,
  3252991074, 3361981244, 2764153245, 1614617366, 381259041, 555128440, 2504040481, 2645335112,
  4240040137, 2600144104, 1756073630, 3677677650, 1155616862, 2202995270, 4028667024, 1356301604,
  3982327778, 684308949, 3999203346, 4108441685, 4184340510, 1459946824, 424959423, 277265398,
  2176288575, 1919995746, 2954915086, 1419166938, 2512688060, 1330642604, 2396262933, 3396639846,
  516427165, 2602817276, 3707451477, 638673095, 3065948335, 2275199293, 912696018, 3157141827,
  1106905200, 3341856085, 1001028308, 1199934160, 531952955, 2346421502, 1551296599, 4271726291,
  1324450630, 1424904317, 1643611397, 4201833225, 709986302, 3209732525, 3549213974, 1284538533]

theorem serverNodes_a : serverNodes realHashes id b!"a" = hashes_a.map (fun h => ⟨b!"a", h⟩) := by
  decide +kernel

/-- SHA-1 points of the server named "b". (Computed from client/ring.go:28-34.) -/
def hashes_b : List Nat := [
  1280855178, 6046377, 1100437792, 1059490883, 2312880879, 832342178, 282779270, 3978547788,
  313671211, 1403305339, 1164738024, 1193987464, 4169631439, 2745149081, 385889552, 3696096226,
  37947688, 547802050, 3524252730, 1762084268, 383992741, 3808471197, 693901581, 3482721709,
  3929669524, 2012435180, 1647811529, 1588756801, 1569184183, 3729738532, 173209840, 1045533227,
  4236287884, 3272131279, 2874919102, 927387377, 3364345106, 3464116851, 1124089411, 3034179173,
  2510122059, 2432462715, 4005583535, 2117290204, 3901769348, 3939441088, 218117994, 3625883641,
  1199500629, 1345251503, 1808364597, 2564584309, 3782160353, 1561893507, 2477028218, 1186349325,
  1739770833, 2769381487, 1460188771, 3286218170, 1526783966, 3301454062, 2819164322, 826379825,
  917719829, 1207996029, 3642402081, 2011384196, 2642131491, 913012693, 873094348, 4200132460,
  3590331401, 2383798492, 427582416, 3461720440, 2199020915, 3824917808, 2278772038, 90956033,
  3340532482, 3476234024, 3047520309, 2510000874, 4053371884, 2426058989, 3182925680, 2304424672,
  843506343, 188864539, 1037640397, 3925175039, 1310901408, 3354988490, 4231531553, 3783995362,
  1980129582, 1577561567, 920125786, 2774125785, 2655605999, 137049307, 1389104485, 2986116724,
  1049546896, 2387187224, 2518597215, 547417723, 4224449803, 1802965527, 1339048973, 1514533256,
  3467861250, 841879009, 4014494023, 2370413215, 2582240814, 3299903486, 44818459, 1283589845,
  1316909602, 2904357357, 2790892400, 3810977622, 2142344297, 2271510374, 1085949364, 598362930,
  794172782, 1872699165, 2189009134, 1080945191, 1317403274, 237287477, 2378293918, 566921251,
  3925822184, 2935369709, 463837675, 1492347094, 4216098811, 690765788, 3835348123, 1012572448,
  1943291120, 885586442, 679308911, 1043308719, 2656835130, 524326492, 247516393, 1757373046,
  4045942382, 13493252, 2501068451, 4201484, 1422878207, 2222715925, 4271788360, 33082908,
  2259693761, 3844378594, 280645492, 1108825940, 2614980916, 1500416789, 3911593762, 3817857288,
  4147365319, 3036990423, 975907002, 1185924980, 3582906902, 977189682, 2194325494, 2161489079,
  1172997411, 4022632772, 1969744464, 3089574481, 1836496755, 2920840172, 494294697, 3798191134,
  1626169411, 1089488380, 656383051, 3496995816, 2855512391, 768011114, 3832161235, 2709965014,
  3164963397, 1846032589, 2340071818, 4032473393, 2923877647, 2504682749, 150842496, 178432464]

theorem serverNodes_b : serverNodes realHashes id b!"b" = hashes_b.map (fun h => ⟨b!"b", h⟩) := by
  decide +kernel

/-- SHA-1 points of the server named "c". (Computed from client/ring.go:28-34.) -/
def hashes_c : List Nat := [
  1682703882, 3832408142, 4165755305, 3431270556, 361551455, 2979125410, 3439455144, 3634799226,
  2098808148, 375329819, 4052104674, 373974842, 2265944514, 689124955, 3946062931, 964406641,
  1335824290, 2918102646, 4268218082, 3334817802, 3246579111, 2694005576, 2733126676, 81776085,
  644373744, 626399797, 331782560, 4220744299, 27920308, 3843996125, 701061601, 2536923119,
  1031616806, 601892799, 184326323, 291117261, 3634770628, 1374268891, 2452503806, 3994535561,
  390197940, 2968108364, 572827598, 1213165021, 2299619444, 2926827052, 3678349339, 1842986734,
  84876190, 2701431976, 840829898, 2827425531, 2209741, 1659873186, 1804265059, 620625965,
  236798222, 3131016179, 985532249, 1847864834, 799034254, 1168652151, 1099410311, 2571016358,
  1988156487, 303289819, 1176522238, 3716617816, 2803527101, 4111754184, 3046429783, 1278588423,
  2022822152, 4153662313, 902169758, 3079960038, 779695662, 1193195120, 2130681841, 1957452080,
  977043955, 1835101325, 3414343498, 2089681007, 2196500154, 1149175066, 1121967315, 1202894178,
  2884343725, 3041913662, 849237675, 1964732671, 1250194571, 522577047, 1459805717, 1518801730,
  3098494203, 2799074632, 1377364646, 2563165732, 2690233740, 1020388717, 1534238464, 2607262367,
  3322752066, 3462917330, 521764099, 4101453437, 3355738184, 989197019, 1675857194, 458944071,
  2156309933, 1711944474, 3670656829, 3593041914, 857477977, 1290507084, 648303221, 4271605139,
  2344692799, 999783460, 1087918519, 3466058448, 2570874110, 4181849233, 590280649, 272927830,
  1266345673, 1685291960, 3286383643, 2785524731, 2847114651, 4093715049, 2644472476, 2935236327,
  2419207199, 3195967339, 3966981837, 1390772831, 3114525703, 2352427819, 1770681209, 1466441361,
  918902391, 1853797062, 3758093046, 1668844792, 333685787, 3437180967, 2662594583, 3909098350,
  2638983647, 4163684995, 1462824108, 3807390424, 476947031, 343468559, 2676294062, 3991100467,
  1903281003, 3283041259, 2410518150, 2682071337, 640206232, 503965535, 1752314221, 3902862763,
  1607660963, 302312894, 4074974532, 1813055736, 2075747523, 3668274036, 2901422618, 1883361012,
  1457324470, 421541056, 2180774552, 682635066, 3042237517, 4064843597, 3818681667, 3501936723,
  2156575892, 2159022380, 2311661755, 799591988, 2322306882, 2440722387, 4123606595, 2679589102,
  818456574, 2569772342, 2604403017, 3851381476, 1359356530, 1284571809, 2058084440, 3766481989]

theorem serverNodes_c : serverNodes realHashes id b!"c" = hashes_c.map (fun h => ⟨b!"c", h⟩) := by
  decide +kernel

/-- SHA-1 points of the server named "mc122". (Computed from client/ring.go:28-34.) -/
def hashes_mc122 : List Nat := [
  699138430, 3089383695, 884314645, 911521464, 369545927, 2064025525, 2497794781, 1480074910,
  2337730053, 2677155297, 2640978662, 114335267, 2471466139, 1033769979, 2038061410, 537329214,
  3584746080, 3375803767, 3123225014, 1701778110, 1367293781, 4077998835, 2521390245, 590841945,
  35252656, 2225170166, 3685707953, 654720582, 3155283579, 3811441242, 156462141, 2810598127,
  58380196, 1037658159, 3137714817, 3783046419, 2166623968, 4234065563, 1609596310, 2894856094,
  753153592, 2010724222, 4074178768, 1747066436, 1124772887, 2733971772, 1442399107, 643543166,
  1082590621, 4044352156, 4111755207, 4022330364, 4030734965, 1118968826, 36152456, 1419301800,
  3244400365, 1496384817, 3789520650, 3440186783, 3851332469, 1348976328, 1031113445, 2098150202,
  2435491579, 2025948371, 2620288274, 4071984762, 3505520483, 32382038, 1446784372, 2229354757,
  1863279234, 3646326286, 2699969285, 2750174090, 1082386016, 3492826721, 849196995, 3216248556,
  935920665, 2618794491, 3553223475, 1741309577, 579593821, 2133208607, 2087768735, 496046169,
  2897922909, 1774354130, 1980732252, 2652489481, 3669742535, 2001935321, 511065354, 4021690123,
  3955814603, 2246995751, 1982848414, 1544242124, 2292172877, 4046994988, 4105816162, 4122206959,
  1643159792, 3625672596, 627793421, 3645065813, 3446074133, 103178658, 372406052, 2409145058,
  1751585470, 3037054049, 2123541724, 13569549, 203543090, 4282475115, 2456948140, 1074194542,
  2805172961, 2618308990, 4237132367, 3391431717, 3965149957, 3731778035, 1548250405, 2995025056,
  1125077690, 2120417123, 3513133835, 871190584, 3568514833, 1701380519, 3692365164, 3526335809,
  3134983343, 3535877949, 3667842428, 224072164, 3081485464, 2228744489, 4026430423, 3368377683,
  1566127408, 233696083, 101260367, 374062592, 1701164878, 1285459261, 3161605185, 1736715153,
  743779740, 2386670734, 1275515921, 4155263298, 4103579784, 104727679, 3134825110, 3761791959,
  1027240039, 4178182961, 3938847719, 2313546868, 4147669980, 785292002, 1944970194, 3493389848,
  3539503720, 2239802396, 2245885134, 1659109434, 4132113675, 2332555387, 1190748151, 2770081123,
  456640006, 1079818699, 317924665, 947784147, 2147216301, 3819312283, 3322274884, 3827006747,
  3414309118, 2631097828, 3963839501, 3827795509, 1701562654, 2261206109, 3782149920, 4099574460,
  1297613857, 3847301034, 548962932, 1778703195, 3466814607, 3215816789, 84586554, 1288086532]

theorem serverNodes_mc122 : serverNodes realHashes id b!"mc122" = hashes_mc122.map (fun h => ⟨b!"mc122", h⟩) := by
  decide +kernel

/-- SHA-1 points of the server named "mc551". (Computed from client/ring.go:28-34.) -/
def hashes_mc551 : List Nat := [
  2551243928, 1757519251, 2739468643, 647059473, 1143401101, 4141421316, 2921105491, 30069878,
  1268638871, 3093953685, 999990741, 2924805997, 3754340418, 573000016, 1807466399, 979873007,
  1544222877, 2320446579, 1836096108, 1027636879, 1804812235, 120797040, 699668355, 2485487754,
  324803132, 1665030, 4259014587, 2584203923, 2619956318, 2770120413, 2340954323, 3677817068,
  2731362511, 3378786120, 1635433574, 3759002472, 2532329313, 2435503745, 2603875155, 1405728842,
  1300278716, 4222417061, 1989735931, 3305446008, 367886044, 2887871971, 1816744643, 4137440633,
  3473889436, 761890015, 108735087, 3091596901, 107920012, 1106098117, 2975036579, 1760287702,
  2085251560, 2570550193, 55723570, 1042292598, 2880340620, 4106537491, 814308772, 2247052662,
  3218793470, 3491436979, 2171513862, 2714552734, 4180340790, 3886976340, 2345005958, 3894559459,
  1079587396, 557061070, 1365012793, 462010554, 4120033434, 1857828922, 4216542965, 3023387023,
  3856478026, 4184219975, 3579374463, 3620246574, 225677333, 2155503873, 2292147680, 2979182544,
  2705264259, 3535455373, 253072559, 1230188532, 2226107189, 1281915732, 4280536994, 2052679628,
  1022644831, 2595918998, 1547930493, 1119860631, 3337905487, 3447891989, 701159172, 316997880,
  2895266036, 3588993336, 3358713164, 2881554855, 3189749750, 3899596160, 72850194, 3942089550,
  930019584, 3661271649, 2284458349, 1358750133, 1880217431, 3882528030, 4060465884, 4268606886,
  1231088406, 1616091093, 1987455664, 3998582564, 2836730797, 293731261, 2529715963, 1638626370,
  1665411668, 489708037, 4150813554, 4092508818, 2976509340, 949247582, 2944637835, 2161599021,
  1498056976, 2644600580, 817462124, 2125678297, 1713911987, 3276067595, 1286054262, 172865924,
  3727014502, 4030440174, 129465595, 2556466216, 625434254, 4180114093, 3724713980, 3671237069,
  2811741523, 1372231350, 3214291671, 62975278, 2369507003, 4037576168, 2286747554, 2830156565,
  1007549653, 2814390844, 2508321235, 1984507216, 2806607990, 2274569276, 333062606, 748593702,
  142308704, 2948154843, 3956183021, 1715017440, 3708618407, 3000511692, 2897922909, 2587900910,
  1191039862, 2412662842, 697364089, 1253665223, 2487001097, 2872875479, 2701104219, 2716434756,
  3136186532, 2415527367, 2243691058, 3990339697, 3664584790, 3597273977, 2702989228, 3136185667,
  1410188160, 3623455099, 1893084077, 3994885202, 1288986401, 1155657066, 3588620071, 674253272]

theorem serverNodes_mc551 : serverNodes realHashes id b!"mc551" = hashes_mc551.map (fun h => ⟨b!"mc551", h⟩) := by
  decide +kernel

end Pool
end Verif
