/-
Data tables of /repo/src/jaxrts/elements.py and absorption_edges_ionized_ions_data.py, copied by a
script, value by value.  A python dict is a list of pairs in the order of the source.  Decimal
numbers are written as natural numbers in units of a power of ten, so that they are exact.
-/

set_option autoImplicit false

namespace Verif.Elements

/-- elements.py 17-54 `_element_symbols`. -/
def symbols : List (Nat × String) := [
  (1, "H"),
  (2, "He"),
  (3, "Li"),
  (4, "Be"),
  (5, "B"),
  (6, "C"),
  (7, "N"),
  (8, "O"),
  (9, "F"),
  (10, "Ne"),
  (11, "Na"),
  (12, "Mg"),
  (13, "Al"),
  (14, "Si"),
  (15, "P"),
  (16, "S"),
  (17, "Cl"),
  (18, "Ar"),
  (19, "K"),
  (20, "Ca"),
  (21, "Sc"),
  (22, "Ti"),
  (23, "V"),
  (24, "Cr"),
  (25, "Mn"),
  (26, "Fe"),
  (27, "Co"),
  (28, "Ni"),
  (29, "Cu"),
  (30, "Zn"),
  (31, "Ga"),
  (32, "Ge"),
  (33, "As"),
  (34, "Se"),
  (35, "Br"),
  (36, "Kr")]

/-- elements.py 55-92 `_element_names`. -/
def names : List (Nat × String) := [
  (1, "Hydrogen"),
  (2, "Helium"),
  (3, "Lithium"),
  (4, "Beryllium"),
  (5, "Boron"),
  (6, "Carbon"),
  (7, "Nitrogen"),
  (8, "Oxygen"),
  (9, "Fluorine"),
  (10, "Neon"),
  (11, "Sodium"),
  (12, "Magnesium"),
  (13, "Aluminum"),
  (14, "Silicon"),
  (15, "Phosphorus"),
  (16, "Sulfur"),
  (17, "Chlorine"),
  (18, "Argon"),
  (19, "Potassium"),
  (20, "Calcium"),
  (21, "Scandium"),
  (22, "Titanium"),
  (23, "Vanadium"),
  (24, "Chromium"),
  (25, "Manganese"),
  (26, "Iron"),
  (27, "Cobalt"),
  (28, "Nickel"),
  (29, "Copper"),
  (30, "Zinc"),
  (31, "Gallium"),
  (32, "Germanium"),
  (33, "Arsenic"),
  (34, "Selenium"),
  (35, "Bromine"),
  (36, "Krypton")]

/-- elements.py 93-130 `_element_masses`, in units of `10⁻⁹` atomic mass constants. -/
def masses : List (Nat × Nat) := [
  (1, 1008000000),
  (2, 4002602000),
  (3, 6940000000),
  (4, 9012183100),
  (5, 10810000000),
  (6, 12011000000),
  (7, 14007000000),
  (8, 15999000000),
  (9, 18998403163),
  (10, 20179700000),
  (11, 22989769280),
  (12, 24305000000),
  (13, 26981538500),
  (14, 28085000000),
  (15, 30973761998),
  (16, 32060000000),
  (17, 35450000000),
  (18, 39948000000),
  (19, 39098300000),
  (20, 40078000000),
  (21, 44955908000),
  (22, 47867000000),
  (23, 50941500000),
  (24, 51996100000),
  (25, 54938044000),
  (26, 55845000000),
  (27, 58933194000),
  (28, 58693400000),
  (29, 63546000000),
  (30, 65380000000),
  (31, 69723000000),
  (32, 72630000000),
  (33, 74921595000),
  (34, 78971000000),
  (35, 79904000000),
  (36, 83798000000)]

/-- elements.py 385-521 `_cold_absorption_edges`, in units of `10⁻⁴` eV; the averages
`(a + b) / 2` written in the source are evaluated.  Rows have 9 or 10 entries, as in the source. -/
def coldEdges : List (Nat × List Nat) := [
  (1, [136000, 0, 0, 0, 0, 0, 0, 0, 0]),
  (2, [246000, 0, 0, 0, 0, 0, 0, 0, 0]),
  (3, [548000, 53000, 0, 0, 0, 0, 0, 0, 0]),
  (4, [1115000, 80000, 30000, 0, 0, 0, 0, 0, 0]),
  (5, [1880000, 126000, 47000, 0, 0, 0, 0, 0, 0]),
  (6, [2842000, 180000, 72000, 0, 0, 0, 0, 0, 0]),
  (7, [4099000, 373000, 175000, 0, 0, 0, 0, 0, 0]),
  (8, [5431000, 416000, 182000, 0, 0, 0, 0, 0, 0]),
  (9, [6967000, 450000, 199000, 0, 0, 0, 0, 0, 0]),
  (10, [8702000, 485000, 216500, 0, 0, 0, 0, 0, 0]),
  (11, [10708000, 635000, 304000, 0, 0, 0, 0, 0, 0]),
  (12, [13030000, 886000, 494000, 20000, 10000, 0, 0, 0, 0]),
  (13, [15590000, 1178000, 727000, 40000, 20000, 0, 0, 0, 0]),
  (14, [18390000, 1497000, 995000, 80000, 20000, 0, 0, 0, 0]),
  (15, [21455000, 1890000, 1355000, 120000, 65000, 0, 0, 0, 0]),
  (16, [24720000, 2309000, 1630500, 140000, 75000, 0, 0, 0, 0]),
  (17, [28220000, 2700000, 2010000, 180000, 100000, 0, 0, 0, 0]),
  (18, [32059000, 3263000, 2493000, 293000, 158000, 0, 0, 0, 0, 0]),
  (19, [36084000, 3786000, 2949500, 348000, 183000, 0, 0, 0, 0, 0]),
  (20, [40385000, 4384000, 3479500, 443000, 254000, 0, 0, 0, 0, 0]),
  (21, [44920000, 4980000, 4011500, 511000, 283000, 0, 0, 0, 0, 0]),
  (22, [49660000, 5609000, 4570000, 587000, 326000, 20000, 0, 0, 0, 0]),
  (23, [54650000, 6267000, 5159500, 663000, 372000, 20000, 0, 0, 0, 0]),
  (24, [59890000, 6960000, 5789500, 741000, 422000, 20000, 0, 0, 0, 0]),
  (25, [65390000, 7691000, 6443000, 823000, 472000, 20000, 0, 0, 0, 0]),
  (26, [71120000, 8446000, 7133500, 913000, 527000, 20000, 0, 0, 0, 0]),
  (27, [77090000, 9251000, 7856500, 1010000, 589000, 30000, 0, 0, 0, 0]),
  (28, [83330000, 10086000, 8613500, 1108000, 671000, 40000, 0, 0, 0, 0]),
  (29, [89790000, 10967000, 9425000, 1225000, 762000, 50000, 0, 0, 0, 0]),
  (30, [96590000, 11962000, 10333500, 1398000, 900000, 101500, 0, 10000, 0, 0]),
  (31, [103670000, 12990000, 11298000, 1595100, 1017500, 187000, 10000, 20000, 0, 0]),
  (32, [111030000, 14146000, 12325500, 1801000, 1228500, 295000, 50000, 30000, 0, 0]),
  (33, [118670000, 15270000, 13413500, 2047000, 1437000, 417000, 80000, 30000, 0, 0]),
  (34, [126580000, 16520000, 14541000, 2296000, 1636000, 555600, 120000, 30000, 0, 0]),
  (35, [134740000, 17820000, 15730000, 2570000, 1855000, 695000, 270000, 30000, 0, 0]),
  (36, [143260000, 19210000, 17046500, 2928000, 2183000, 944000, 275000, 141000, 0, 0])]

/-- elements.py 565-667 `_ionization_energies`, in units of `10⁻¹²` eV. -/
def ionizationEnergies : List (Nat × List Nat) := [
  (1, [13598434599702]),
  (2, [24587389011000, 54417765528200]),
  (3, [5391714996000, 75640097000000, 122454359130000]),
  (4, [9322699000000, 18211150000000, 153896205000000, 217718584590000]),
  (5, [8298019000000, 25154830000000, 37930590000000, 259374379000000, 340226022500000]),
  (6, [11260288000000, 24383143000000, 47887780000000, 64493520000000, 392090560000000,
    489993207790000]),
  (7, [14534130000000, 29601250000000, 47445300000000, 77473500000000, 97890100000000,
    552067410000000, 667046137700000]),
  (8, [13618055000000, 35121120000000, 54935540000000, 77413500000000, 113899000000000,
    138118900000000, 739326970000000, 871409913800000]),
  (9, [17422820000000, 34970810000000, 62707980000000, 87175000000000, 1103117530200000,
    114249000000000, 157163110000000, 185186800000000, 953898300000000]),
  (10, [21564541000000, 40962970000000, 63423300000000, 97190000000000, 1195808200000000,
    126247000000000, 157934000000000, 207271000000000, 239097000000000, 1362199256000000]),
  (11, [5139076960000, 47286360000000, 71620000000000, 98936000000000, 299856000000000,
    138404000000000, 172230000000000, 208504000000000, 264192000000000, 1465099200000000,
    1648702285000000]),
  (12, [7646236000000, 15035271000000, 80143600000000, 109265400000000, 327990000000000,
    141330000000000, 186760000000000, 225020000000000, 265924000000000, 367489000000000,
    1761804900000000, 1962663889000000]),
  (13, [5985769000000, 18828550000000, 28447642000000, 119992400000000, 330210000000000,
    153825200000000, 190490000000000, 241760000000000, 284640000000000, 398650000000000,
    442005000000000, 2085976930000000, 2304140359000000]),
  (14, [8151680000000, 16345850000000, 33493000000000, 45141790000000, 351280000000000,
    166767000000000, 205279000000000, 246570000000000, 303590000000000, 401380000000000,
    476273000000000, 523415000000000, 2437658050000000, 2673177958000000]),
  (15, [10486686000000, 19769490000000, 30202640000000, 51443870000000, 372310000000000,
    65025110000000, 220430000000000, 263570000000000, 309600000000000, 424400000000000,
    479440000000000, 560620000000000, 611741000000000, 2816908680000000, 3069842145000000]),
  (16, [10360010000000, 23337880000000, 34860000000000, 47222000000000, 379840000000000,
    72594500000000, 88052900000000, 280954000000000, 328794000000000, 447700000000000,
    504550000000000, 564410000000000, 651960000000000, 706994000000000, 3223780570000000,
    3494188518000000]),
  (17, [12967633000000, 23813640000000, 39800000000000, 53240000000000, 400851000000000,
    67680000000000, 96940000000000, 114201300000000, 348306000000000, 456700000000000,
    530000000000000, 591580000000000, 656300000000000, 750230000000000, 809198000000000,
    3658343660000000, 3946291790000000]),
  (18, [15759611900000, 27629670000000, 40735000000000, 59580000000000, 422600000000000,
    74840000000000, 91290000000000, 124410000000000, 143456700000000, 479760000000000,
    540400000000000, 619000000000000, 685500000000000, 755130000000000, 855500000000000,
    918375000000000, 4120665590000000, 4426224070000000]),
  (19, [4340663730000, 31625000000000, 45803100000000, 60917000000000, 175817400000000,
    82660000000000, 99440000000000, 117560000000000, 154870000000000, 503670000000000,
    565600000000000, 631100000000000, 714700000000000, 786300000000000, 4934049790000000,
    860920000000000, 967700000000000, 1034542000000000, 4610807140000000]),
  (20, [6113155470000, 11871719000000, 50913160000000, 67273200000000, 188540000000000,
    84340000000000, 108780000000000, 127210000000000, 147240000000000, 211275000000000,
    591600000000000, 658200000000000, 728600000000000, 817200000000000, 5128857600000000,
    894000000000000, 973700000000000, 1086800000000000, 1157726000000000, 5469863580000000]),
  (21, [6561490000000, 12799770000000, 24756839000000, 73489400000000, 180030000000000,
    91950000000000, 110680000000000, 137990000000000, 158080000000000, 225180000000000,
    249798000000000, 687360000000000, 757700000000000, 833200000000000, 1287957000000000,
    926500000000000, 1008600000000000, 1093500000000000, 1213100000000000, 5674903600000000,
    6033756430000000]),
  (22, [6828120000000, 13575500000000, 27491710000000, 43267170000000, 192100000000000,
    99299000000000, 119533000000000, 140680000000000, 170500000000000, 215920000000000,
    265070000000000, 291500000000000, 787670000000000, 864000000000000, 1346300000000000,
    944500000000000, 1042500000000000, 1130200000000000, 1220300000000000, 1425257000000000,
    6249022600000000, 6625810230000000]),
  (23, [6746187000000, 14634000000000, 29311100000000, 46709000000000, 206000000000000,
    65281650000000, 128125000000000, 150720000000000, 173550000000000, 230500000000000,
    254800000000000, 308500000000000, 336274000000000, 896000000000000, 1354200000000000,
    977200000000000, 1062900000000000, 1165200000000000, 1258900000000000, 1486700000000000,
    1569656000000000, 6851311200000000, 7246126240000000]),
  (24, [6766510000000, 16486305000000, 30959000000000, 49160000000000, 209500000000000,
    69460000000000, 90634900000000, 160290000000000, 184760000000000, 244500000000000,
    270800000000000, 296700000000000, 354700000000000, 384163000000000, 1394500000000000,
    1011600000000000, 1097200000000000, 1188000000000000, 1294800000000000, 1495100000000000,
    1634100000000000, 1721183000000000, 7481862400000000, 7894802890000000]),
  (25, [7434038000000, 15639990000000, 33668000000000, 51210000000000, 221890000000000,
    72410000000000, 95604000000000, 119203000000000, 195500000000000, 248600000000000,
    286100000000000, 314400000000000, 343600000000000, 402950000000000, 1430900000000000,
    435172000000000, 1133700000000000, 1224100000000000, 1320300000000000, 1537200000000000,
    1643200000000000, 1788700000000000, 1879873000000000, 8140786400000000, 8571954380000000]),
  (26, [7902468100000, 16199210000000, 30651000000000, 54910000000000, 233600000000000,
    75000000000000, 98985000000000, 124967100000000, 151060000000000, 262100000000000,
    290900000000000, 330800000000000, 361000000000000, 392200000000000, 1460000000000000,
    456200000000000, 489312000000000, 1262700000000000, 1357800000000000, 1575600000000000,
    1687000000000000, 1798400000000000, 1950400000000000, 2045759000000000, 8828186400000000,
    9277688600000000]),
  (27, [7881010000000, 17084400000000, 33500000000000, 51270000000000, 186140000000000,
    79500000000000, 102000000000000, 128900000000000, 157800000000000, 275400000000000,
    305320000000000, 336100000000000, 378500000000000, 410000000000000, 1504500000000000,
    441100000000000, 511960000000000, 546588000000000, 1397200000000000, 1606000000000000,
    1724000000000000, 1844000000000000, 1960800000000000, 2119400000000000, 2218876000000000,
    9544181700000000, 10012129700000000]),
  (28, [7639878000000, 18168838000000, 35187000000000, 54920000000000, 193200000000000,
    76060000000000, 108000000000000, 132000000000000, 162000000000000, 224700000000000,
    319500000000000, 351600000000000, 384500000000000, 429300000000000, 1540100000000000,
    462800000000000, 495400000000000, 571070000000000, 607020000000000, 1646000000000000,
    1758000000000000, 1880000000000000, 2008100000000000, 2130500000000000, 2295600000000000,
    2399259000000000, 10288884800000000, 10775394800000000]),
  (29, [7726380000000, 20292390000000, 36841000000000, 57380000000000, 198000000000000,
    79800000000000, 103000000000000, 139000000000000, 166000000000000, 232200000000000,
    265330000000000, 367000000000000, 401000000000000, 436000000000000, 670608000000000,
    483100000000000, 518700000000000, 552800000000000, 632500000000000, 1690500000000000,
    1800000000000000, 1918000000000000, 2044000000000000, 2179400000000000, 11567623700000000,
    2307300000000000, 2479100000000000, 2586954000000000, 11062430900000000]),
  (30, [9394197000000, 17964390000000, 39723300000000, 59573000000000, 203000000000000,
    82600000000000, 108000000000000, 133900000000000, 173900000000000, 238000000000000,
    274400000000000, 310800000000000, 417600000000000, 453400000000000, 697500000000000,
    490600000000000, 540000000000000, 577800000000000, 613300000000000, 737366000000000,
    1846800000000000, 1961000000000000, 2085000000000000, 2214000000000000, 11864940100000000,
    2358000000000000, 2491500000000000, 2669900000000000, 2781996000000000, 12388942700000000]),
  (31, [5999302000000, 20515140000000, 30725760000000, 63241000000000, 211000000000000,
    86010000000000, 112700000000000, 140800000000000, 169900000000000, 244000000000000,
    280000000000000, 319000000000000, 356000000000000, 471200000000000, 677000000000000,
    508800000000000, 548300000000000, 599800000000000, 640000000000000, 765700000000000,
    807308000000000, 2010000000000000, 2129000000000000, 2258000000000000, 2984426000000000,
    2391000000000000, 2543900000000000, 2683000000000000, 2868000000000000, 12696558100000000,
    13239502900000000]),
  (32, [7899435000000, 15934610000000, 34057600000000, 45715500000000, 212500000000000,
    90500000000000, 115900000000000, 144900000000000, 176400000000000, 252100000000000,
    286000000000000, 326000000000000, 367000000000000, 407000000000000, 706700000000000,
    527900000000000, 567300000000000, 609100000000000, 662800000000000, 744000000000000,
    837100000000000, 880440000000000, 2178200000000000, 2304000000000000, 3074000000000000,
    2439000000000000, 2575000000000000, 2737100000000000, 2881900000000000, 3194293000000000,
    13557421800000000, 14119445700000000]),
  (33, [9788550000000, 18589200000000, 28349000000000, 50150000000000, 213000000000000,
    62770000000000, 121190000000000, 147000000000000, 180000000000000, 247000000000000,
    296000000000000, 333000000000000, 375000000000000, 418000000000000, 728900000000000,
    460000000000000, 587600000000000, 628800000000000, 672900000000000, 774000000000000,
    814000000000000, 911700000000000, 956790000000000, 2356900000000000, 3088100000000000,
    2486000000000000, 2626000000000000, 2766000000000000, 2938000000000000, 3287000000000000,
    3411643000000000, 14447679900000000, 15028925100000000]),
  (34, [9752368000000, 21196000000000, 31697000000000, 42947000000000, 219000000000000,
    68300000000000, 81830000000000, 155327000000000, 184000000000000, 255000000000000,
    291000000000000, 342900000000000, 383000000000000, 426000000000000, 739800000000000,
    473000000000000, 517000000000000, 650500000000000, 693400000000000, 798000000000000,
    845800000000000, 887000000000000, 989600000000000, 1036360000000000, 3146000000000000,
    2540700000000000, 2674000000000000, 2820000000000000, 2964000000000000, 3301800000000000,
    3507000000000000, 3636526000000000, 15367493000000000, 15968107500000000]),
  (35, [11813810000000, 21591000000000, 34871000000000, 47782000000000, 224000000000000,
    59595000000000, 87390000000000, 103030000000000, 192610000000000, 261000000000000,
    301000000000000, 338000000000000, 393000000000000, 436000000000000, 761000000000000,
    481000000000000, 530000000000000, 577000000000000, 716300000000000, 809800000000000,
    870000000000000, 920800000000000, 963000000000000, 1070600000000000, 3169000000000000,
    1119170000000000, 2731400000000000, 2869000000000000, 3021000000000000, 3361000000000000,
    3523100000000000, 3735000000000000, 3868986000000000, 16317014000000000, 16937149700000000]),
  (36, [13999605500000, 24359840000000, 35838000000000, 50850000000000, 233000000000000,
    64690000000000, 78490000000000, 109130000000000, 125802000000000, 268000000000000,
    308000000000000, 350000000000000, 391000000000000, 446000000000000, 785316000000000,
    492000000000000, 540000000000000, 591000000000000, 640000000000000, 831600000000000,
    882800000000000, 945000000000000, 999000000000000, 1042000000000000, 3228000000000000,
    1155000000000000, 1205230000000000, 2928900000000000, 3072000000000000, 3380000000000000,
    3584000000000000, 3752000000000000, 3971000000000000, 4109083000000000, 17296424000000000,
    17936240500000000])]

/-- elements.py 1468-1538 `_ionization_statistical_weights`; the source writes `2.0` for `2`. -/
def statisticalWeights : List (Nat × List Nat) := [
  (1, [2, 1]),
  (2, [1, 2, 1]),
  (3, [2, 1, 2, 1]),
  (4, [1, 2, 1, 2, 1]),
  (5, [2, 1, 2, 1, 2, 1]),
  (6, [1, 2, 1, 2, 1, 2, 1]),
  (7, [4, 1, 2, 1, 2, 1, 2, 1]),
  (8, [5, 4, 1, 2, 1, 2, 1, 2, 1]),
  (9, [4, 5, 4, 1, 2, 1, 2, 1, 2, 1]),
  (10, [1, 4, 5, 4, 1, 2, 1, 2, 1, 2, 1]),
  (11, [2, 1, 4, 5, 4, 1, 2, 1, 2, 1, 2, 1]),
  (12, [1, 2, 1, 4, 5, 4, 1, 2, 1, 2, 1, 2, 1]),
  (13, [2, 1, 2, 1, 4, 5, 4, 1, 2, 1, 2, 1, 2, 1]),
  (14, [1, 2, 1, 2, 1, 4, 5, 4, 1, 2, 1, 2, 1, 2, 1]),
  (15, [4, 1, 2, 1, 2, 1, 4, 5, 4, 1, 2, 1, 2, 1, 2, 1]),
  (16, [5, 4, 1, 2, 1, 2, 1, 4, 5, 4, 1, 2, 1, 2, 1, 2, 1]),
  (17, [4, 5, 4, 1, 2, 1, 2, 1, 4, 5, 4, 1, 2, 1, 2, 1, 2, 1]),
  (18, [1, 4, 5, 4, 1, 2, 1, 2, 1, 4, 5, 4, 1, 2, 1, 2, 1, 2, 1]),
  (19, [2, 1, 4, 5, 4, 1, 2, 1, 2, 1, 4, 5, 4, 1, 2, 1, 2, 1, 2, 1]),
  (20, [1, 2, 1, 4, 5, 4, 1, 2, 1, 2, 1, 4, 5, 4, 1, 2, 1, 2, 1, 2, 1]),
  (21, [4, 5, 4, 1, 4, 5, 4, 1, 2, 1, 2, 1, 4, 5, 4, 1, 2, 1, 2, 1, 2, 1]),
  (22, [5, 6, 5, 4, 1, 4, 5, 4, 1, 2, 1, 2, 1, 4, 5, 4, 1, 2, 1, 2, 1, 2, 1]),
  (23, [4, 5, 4, 5, 4, 1, 4, 5, 4, 1, 2, 1, 2, 1, 4, 5, 4, 1, 2, 1, 2, 1, 2, 1]),
  (24, [7, 6, 1, 4, 5, 4, 1, 4, 5, 4, 1, 2, 1, 2, 1, 4, 5, 4, 1, 2, 1, 2, 1, 2, 1]),
  (25, [6, 7, 6, 1, 4, 5, 4, 1, 4, 5, 4, 1, 2, 1, 2, 1, 4, 5, 4, 1, 2, 1, 2, 1, 2, 1]),
  (26, [9, 10, 9, 6, 1, 4, 5, 4, 1, 4, 5, 4, 1, 2, 1, 2, 1, 4, 5, 4, 1, 2, 1, 2, 1, 2, 1]),
  (27, [10, 11, 10, 9, 6, 1, 4, 5, 4, 1, 4, 5, 4, 1, 2, 1, 2, 1, 4, 5, 4, 1, 2, 1, 2, 1, 2, 1]),
  (28, [9, 10, 9, 10, 9, 6, 1, 4, 5, 4, 1, 4, 5, 4, 1, 2, 1, 2, 1, 4, 5, 4, 1, 2, 1, 2, 1, 2, 1]),
  (29, [2, 1, 6, 9, 10, 9, 6, 1, 4, 5, 4, 1, 4, 5, 4, 1, 2, 1, 2, 1, 4, 5, 4, 1, 2, 1, 2, 1, 2,
    1]),
  (30, [1, 2, 1, 6, 9, 10, 9, 6, 1, 4, 5, 4, 1, 4, 5, 4, 1, 2, 1, 2, 1, 4, 5, 4, 1, 2, 1, 2, 1,
    2, 1]),
  (31, [2, 1, 2, 1, 6, 9, 10, 9, 6, 1, 4, 5, 4, 1, 4, 5, 4, 1, 2, 1, 2, 1, 4, 5, 4, 1, 2, 1, 2,
    1, 2, 1]),
  (32, [1, 2, 1, 2, 1, 6, 9, 10, 9, 6, 1, 4, 5, 4, 1, 4, 5, 4, 1, 2, 1, 2, 1, 4, 5, 4, 1, 2, 1,
    2, 1, 2, 1]),
  (33, [4, 1, 2, 1, 2, 1, 6, 9, 10, 9, 6, 1, 4, 5, 4, 1, 4, 5, 4, 1, 2, 1, 2, 1, 4, 5, 4, 1, 2,
    1, 2, 1, 2, 1]),
  (34, [5, 4, 1, 2, 1, 2, 1, 6, 9, 10, 9, 6, 1, 4, 5, 4, 1, 4, 5, 4, 1, 2, 1, 2, 1, 4, 5, 4, 1,
    2, 1, 2, 1, 2, 1]),
  (35, [4, 5, 4, 1, 2, 1, 2, 1, 6, 9, 10, 9, 6, 1, 4, 5, 4, 1, 4, 5, 4, 1, 2, 1, 2, 1, 4, 5, 4,
    1, 2, 1, 2, 1, 2, 1]),
  (36, [1, 4, 5, 4, 1, 2, 1, 2, 1, 6, 9, 10, 9, 6, 1, 4, 5, 4, 1, 4, 5, 4, 1, 2, 1, 2, 1, 4, 5,
    4, 1, 2, 1, 2, 1, 2, 1])]

/-- elements.py 677-1452 `_ionization_econf`. -/
def econf : List (Nat × List (List Nat)) := [
  (1, [[1, 0, 0, 0, 0, 0, 0, 0, 0, 0],
    [0, 0, 0, 0, 0, 0, 0, 0, 0, 0]]),
  (2, [[2, 0, 0, 0, 0, 0, 0, 0, 0, 0],
    [1, 0, 0, 0, 0, 0, 0, 0, 0, 0],
    [0, 0, 0, 0, 0, 0, 0, 0, 0, 0]]),
  (3, [[2, 1, 0, 0, 0, 0, 0, 0, 0, 0],
    [2, 0, 0, 0, 0, 0, 0, 0, 0, 0],
    [1, 0, 0, 0, 0, 0, 0, 0, 0, 0],
    [0, 0, 0, 0, 0, 0, 0, 0, 0, 0]]),
  (4, [[2, 2, 0, 0, 0, 0, 0, 0, 0, 0],
    [2, 1, 0, 0, 0, 0, 0, 0, 0, 0],
    [2, 0, 0, 0, 0, 0, 0, 0, 0, 0],
    [1, 0, 0, 0, 0, 0, 0, 0, 0, 0],
    [0, 0, 0, 0, 0, 0, 0, 0, 0, 0]]),
  (5, [[2, 2, 1, 0, 0, 0, 0, 0, 0, 0],
    [2, 2, 0, 0, 0, 0, 0, 0, 0, 0],
    [2, 1, 0, 0, 0, 0, 0, 0, 0, 0],
    [2, 0, 0, 0, 0, 0, 0, 0, 0, 0],
    [1, 0, 0, 0, 0, 0, 0, 0, 0, 0],
    [0, 0, 0, 0, 0, 0, 0, 0, 0, 0]]),
  (6, [[2, 2, 2, 0, 0, 0, 0, 0, 0, 0],
    [2, 2, 1, 0, 0, 0, 0, 0, 0, 0],
    [2, 2, 0, 0, 0, 0, 0, 0, 0, 0],
    [2, 1, 0, 0, 0, 0, 0, 0, 0, 0],
    [2, 0, 0, 0, 0, 0, 0, 0, 0, 0],
    [1, 0, 0, 0, 0, 0, 0, 0, 0, 0],
    [0, 0, 0, 0, 0, 0, 0, 0, 0, 0]]),
  (7, [[2, 2, 3, 0, 0, 0, 0, 0, 0, 0],
    [2, 2, 2, 0, 0, 0, 0, 0, 0, 0],
    [2, 2, 1, 0, 0, 0, 0, 0, 0, 0],
    [2, 2, 0, 0, 0, 0, 0, 0, 0, 0],
    [2, 1, 0, 0, 0, 0, 0, 0, 0, 0],
    [2, 0, 0, 0, 0, 0, 0, 0, 0, 0],
    [1, 0, 0, 0, 0, 0, 0, 0, 0, 0],
    [0, 0, 0, 0, 0, 0, 0, 0, 0, 0]]),
  (8, [[2, 2, 4, 0, 0, 0, 0, 0, 0, 0],
    [2, 2, 3, 0, 0, 0, 0, 0, 0, 0],
    [2, 2, 2, 0, 0, 0, 0, 0, 0, 0],
    [2, 2, 1, 0, 0, 0, 0, 0, 0, 0],
    [2, 2, 0, 0, 0, 0, 0, 0, 0, 0],
    [2, 1, 0, 0, 0, 0, 0, 0, 0, 0],
    [2, 0, 0, 0, 0, 0, 0, 0, 0, 0],
    [1, 0, 0, 0, 0, 0, 0, 0, 0, 0],
    [0, 0, 0, 0, 0, 0, 0, 0, 0, 0]]),
  (9, [[2, 2, 5, 0, 0, 0, 0, 0, 0, 0],
    [2, 2, 4, 0, 0, 0, 0, 0, 0, 0],
    [2, 2, 3, 0, 0, 0, 0, 0, 0, 0],
    [2, 2, 2, 0, 0, 0, 0, 0, 0, 0],
    [2, 2, 1, 0, 0, 0, 0, 0, 0, 0],
    [2, 2, 0, 0, 0, 0, 0, 0, 0, 0],
    [2, 1, 0, 0, 0, 0, 0, 0, 0, 0],
    [2, 0, 0, 0, 0, 0, 0, 0, 0, 0],
    [1, 0, 0, 0, 0, 0, 0, 0, 0, 0],
    [0, 0, 0, 0, 0, 0, 0, 0, 0, 0]]),
  (10, [[2, 2, 6, 0, 0, 0, 0, 0, 0, 0],
    [2, 2, 5, 0, 0, 0, 0, 0, 0, 0],
    [2, 2, 4, 0, 0, 0, 0, 0, 0, 0],
    [2, 2, 3, 0, 0, 0, 0, 0, 0, 0],
    [2, 2, 2, 0, 0, 0, 0, 0, 0, 0],
    [2, 2, 1, 0, 0, 0, 0, 0, 0, 0],
    [2, 2, 0, 0, 0, 0, 0, 0, 0, 0],
    [2, 1, 0, 0, 0, 0, 0, 0, 0, 0],
    [2, 0, 0, 0, 0, 0, 0, 0, 0, 0],
    [1, 0, 0, 0, 0, 0, 0, 0, 0, 0],
    [0, 0, 0, 0, 0, 0, 0, 0, 0, 0]]),
  (11, [[2, 2, 6, 1, 0, 0, 0, 0, 0, 0],
    [2, 2, 6, 0, 0, 0, 0, 0, 0, 0],
    [2, 2, 5, 0, 0, 0, 0, 0, 0, 0],
    [2, 2, 4, 0, 0, 0, 0, 0, 0, 0],
    [2, 2, 3, 0, 0, 0, 0, 0, 0, 0],
    [2, 2, 2, 0, 0, 0, 0, 0, 0, 0],
    [2, 2, 1, 0, 0, 0, 0, 0, 0, 0],
    [2, 2, 0, 0, 0, 0, 0, 0, 0, 0],
    [2, 1, 0, 0, 0, 0, 0, 0, 0, 0],
    [2, 0, 0, 0, 0, 0, 0, 0, 0, 0],
    [1, 0, 0, 0, 0, 0, 0, 0, 0, 0],
    [0, 0, 0, 0, 0, 0, 0, 0, 0, 0]]),
  (12, [[2, 2, 6, 2, 0, 0, 0, 0, 0, 0],
    [2, 2, 6, 1, 0, 0, 0, 0, 0, 0],
    [2, 2, 6, 0, 0, 0, 0, 0, 0, 0],
    [2, 2, 5, 0, 0, 0, 0, 0, 0, 0],
    [2, 2, 4, 0, 0, 0, 0, 0, 0, 0],
    [2, 2, 3, 0, 0, 0, 0, 0, 0, 0],
    [2, 2, 2, 0, 0, 0, 0, 0, 0, 0],
    [2, 2, 1, 0, 0, 0, 0, 0, 0, 0],
    [2, 2, 0, 0, 0, 0, 0, 0, 0, 0],
    [2, 1, 0, 0, 0, 0, 0, 0, 0, 0],
    [2, 0, 0, 0, 0, 0, 0, 0, 0, 0],
    [1, 0, 0, 0, 0, 0, 0, 0, 0, 0],
    [0, 0, 0, 0, 0, 0, 0, 0, 0, 0]]),
  (13, [[2, 2, 6, 2, 1, 0, 0, 0, 0, 0],
    [2, 2, 6, 2, 0, 0, 0, 0, 0, 0],
    [2, 2, 6, 1, 0, 0, 0, 0, 0, 0],
    [2, 2, 6, 0, 0, 0, 0, 0, 0, 0],
    [2, 2, 5, 0, 0, 0, 0, 0, 0, 0],
    [2, 2, 4, 0, 0, 0, 0, 0, 0, 0],
    [2, 2, 3, 0, 0, 0, 0, 0, 0, 0],
    [2, 2, 2, 0, 0, 0, 0, 0, 0, 0],
    [2, 2, 1, 0, 0, 0, 0, 0, 0, 0],
    [2, 2, 0, 0, 0, 0, 0, 0, 0, 0],
    [2, 1, 0, 0, 0, 0, 0, 0, 0, 0],
    [2, 0, 0, 0, 0, 0, 0, 0, 0, 0],
    [1, 0, 0, 0, 0, 0, 0, 0, 0, 0],
    [0, 0, 0, 0, 0, 0, 0, 0, 0, 0]]),
  (14, [[2, 2, 6, 2, 2, 0, 0, 0, 0, 0],
    [2, 2, 6, 2, 1, 0, 0, 0, 0, 0],
    [2, 2, 6, 2, 0, 0, 0, 0, 0, 0],
    [2, 2, 6, 1, 0, 0, 0, 0, 0, 0],
    [2, 2, 6, 0, 0, 0, 0, 0, 0, 0],
    [2, 2, 5, 0, 0, 0, 0, 0, 0, 0],
    [2, 2, 4, 0, 0, 0, 0, 0, 0, 0],
    [2, 2, 3, 0, 0, 0, 0, 0, 0, 0],
    [2, 2, 2, 0, 0, 0, 0, 0, 0, 0],
    [2, 2, 1, 0, 0, 0, 0, 0, 0, 0],
    [2, 2, 0, 0, 0, 0, 0, 0, 0, 0],
    [2, 1, 0, 0, 0, 0, 0, 0, 0, 0],
    [2, 0, 0, 0, 0, 0, 0, 0, 0, 0],
    [1, 0, 0, 0, 0, 0, 0, 0, 0, 0],
    [0, 0, 0, 0, 0, 0, 0, 0, 0, 0]]),
  (15, [[2, 2, 6, 2, 3, 0, 0, 0, 0, 0],
    [2, 2, 6, 2, 2, 0, 0, 0, 0, 0],
    [2, 2, 6, 2, 1, 0, 0, 0, 0, 0],
    [2, 2, 6, 2, 0, 0, 0, 0, 0, 0],
    [2, 2, 6, 1, 0, 0, 0, 0, 0, 0],
    [2, 2, 6, 0, 0, 0, 0, 0, 0, 0],
    [2, 2, 5, 0, 0, 0, 0, 0, 0, 0],
    [2, 2, 4, 0, 0, 0, 0, 0, 0, 0],
    [2, 2, 3, 0, 0, 0, 0, 0, 0, 0],
    [2, 2, 2, 0, 0, 0, 0, 0, 0, 0],
    [2, 2, 1, 0, 0, 0, 0, 0, 0, 0],
    [2, 2, 0, 0, 0, 0, 0, 0, 0, 0],
    [2, 1, 0, 0, 0, 0, 0, 0, 0, 0],
    [2, 0, 0, 0, 0, 0, 0, 0, 0, 0],
    [1, 0, 0, 0, 0, 0, 0, 0, 0, 0],
    [0, 0, 0, 0, 0, 0, 0, 0, 0, 0]]),
  (16, [[2, 2, 6, 2, 4, 0, 0, 0, 0, 0],
    [2, 2, 6, 2, 3, 0, 0, 0, 0, 0],
    [2, 2, 6, 2, 2, 0, 0, 0, 0, 0],
    [2, 2, 6, 2, 1, 0, 0, 0, 0, 0],
    [2, 2, 6, 2, 0, 0, 0, 0, 0, 0],
    [2, 2, 6, 1, 0, 0, 0, 0, 0, 0],
    [2, 2, 6, 0, 0, 0, 0, 0, 0, 0],
    [2, 2, 5, 0, 0, 0, 0, 0, 0, 0],
    [2, 2, 4, 0, 0, 0, 0, 0, 0, 0],
    [2, 2, 3, 0, 0, 0, 0, 0, 0, 0],
    [2, 2, 2, 0, 0, 0, 0, 0, 0, 0],
    [2, 2, 1, 0, 0, 0, 0, 0, 0, 0],
    [2, 2, 0, 0, 0, 0, 0, 0, 0, 0],
    [2, 1, 0, 0, 0, 0, 0, 0, 0, 0],
    [2, 0, 0, 0, 0, 0, 0, 0, 0, 0],
    [1, 0, 0, 0, 0, 0, 0, 0, 0, 0],
    [0, 0, 0, 0, 0, 0, 0, 0, 0, 0]]),
  (17, [[2, 2, 6, 2, 5, 0, 0, 0, 0, 0],
    [2, 2, 6, 2, 4, 0, 0, 0, 0, 0],
    [2, 2, 6, 2, 3, 0, 0, 0, 0, 0],
    [2, 2, 6, 2, 2, 0, 0, 0, 0, 0],
    [2, 2, 6, 2, 1, 0, 0, 0, 0, 0],
    [2, 2, 6, 2, 0, 0, 0, 0, 0, 0],
    [2, 2, 6, 1, 0, 0, 0, 0, 0, 0],
    [2, 2, 6, 0, 0, 0, 0, 0, 0, 0],
    [2, 2, 5, 0, 0, 0, 0, 0, 0, 0],
    [2, 2, 4, 0, 0, 0, 0, 0, 0, 0],
    [2, 2, 3, 0, 0, 0, 0, 0, 0, 0],
    [2, 2, 2, 0, 0, 0, 0, 0, 0, 0],
    [2, 2, 1, 0, 0, 0, 0, 0, 0, 0],
    [2, 2, 0, 0, 0, 0, 0, 0, 0, 0],
    [2, 1, 0, 0, 0, 0, 0, 0, 0, 0],
    [2, 0, 0, 0, 0, 0, 0, 0, 0, 0],
    [1, 0, 0, 0, 0, 0, 0, 0, 0, 0],
    [0, 0, 0, 0, 0, 0, 0, 0, 0, 0]]),
  (18, [[2, 2, 6, 2, 6, 0, 0, 0, 0, 0],
    [2, 2, 6, 2, 5, 0, 0, 0, 0, 0],
    [2, 2, 6, 2, 4, 0, 0, 0, 0, 0],
    [2, 2, 6, 2, 3, 0, 0, 0, 0, 0],
    [2, 2, 6, 2, 2, 0, 0, 0, 0, 0],
    [2, 2, 6, 2, 1, 0, 0, 0, 0, 0],
    [2, 2, 6, 2, 0, 0, 0, 0, 0, 0],
    [2, 2, 6, 1, 0, 0, 0, 0, 0, 0],
    [2, 2, 6, 0, 0, 0, 0, 0, 0, 0],
    [2, 2, 5, 0, 0, 0, 0, 0, 0, 0],
    [2, 2, 4, 0, 0, 0, 0, 0, 0, 0],
    [2, 2, 3, 0, 0, 0, 0, 0, 0, 0],
    [2, 2, 2, 0, 0, 0, 0, 0, 0, 0],
    [2, 2, 1, 0, 0, 0, 0, 0, 0, 0],
    [2, 2, 0, 0, 0, 0, 0, 0, 0, 0],
    [2, 1, 0, 0, 0, 0, 0, 0, 0, 0],
    [2, 0, 0, 0, 0, 0, 0, 0, 0, 0],
    [1, 0, 0, 0, 0, 0, 0, 0, 0, 0],
    [0, 0, 0, 0, 0, 0, 0, 0, 0, 0]]),
  (19, [[2, 2, 6, 2, 6, 0, 1, 0, 0, 0],
    [2, 2, 6, 2, 6, 0, 0, 0, 0, 0],
    [2, 2, 6, 2, 5, 0, 0, 0, 0, 0],
    [2, 2, 6, 2, 4, 0, 0, 0, 0, 0],
    [2, 2, 6, 2, 3, 0, 0, 0, 0, 0],
    [2, 2, 6, 2, 2, 0, 0, 0, 0, 0],
    [2, 2, 6, 2, 1, 0, 0, 0, 0, 0],
    [2, 2, 6, 2, 0, 0, 0, 0, 0, 0],
    [2, 2, 6, 1, 0, 0, 0, 0, 0, 0],
    [2, 2, 6, 0, 0, 0, 0, 0, 0, 0],
    [2, 2, 5, 0, 0, 0, 0, 0, 0, 0],
    [2, 2, 4, 0, 0, 0, 0, 0, 0, 0],
    [2, 2, 3, 0, 0, 0, 0, 0, 0, 0],
    [2, 2, 2, 0, 0, 0, 0, 0, 0, 0],
    [2, 2, 1, 0, 0, 0, 0, 0, 0, 0],
    [2, 2, 0, 0, 0, 0, 0, 0, 0, 0],
    [2, 1, 0, 0, 0, 0, 0, 0, 0, 0],
    [2, 0, 0, 0, 0, 0, 0, 0, 0, 0],
    [1, 0, 0, 0, 0, 0, 0, 0, 0, 0],
    [0, 0, 0, 0, 0, 0, 0, 0, 0, 0]]),
  (20, [[2, 2, 6, 2, 6, 0, 2, 0, 0, 0],
    [2, 2, 6, 2, 6, 0, 1, 0, 0, 0],
    [2, 2, 6, 2, 6, 0, 0, 0, 0, 0],
    [2, 2, 6, 2, 5, 0, 0, 0, 0, 0],
    [2, 2, 6, 2, 4, 0, 0, 0, 0, 0],
    [2, 2, 6, 2, 3, 0, 0, 0, 0, 0],
    [2, 2, 6, 2, 2, 0, 0, 0, 0, 0],
    [2, 2, 6, 2, 1, 0, 0, 0, 0, 0],
    [2, 2, 6, 2, 0, 0, 0, 0, 0, 0],
    [2, 2, 6, 1, 0, 0, 0, 0, 0, 0],
    [2, 2, 6, 0, 0, 0, 0, 0, 0, 0],
    [2, 2, 5, 0, 0, 0, 0, 0, 0, 0],
    [2, 2, 4, 0, 0, 0, 0, 0, 0, 0],
    [2, 2, 3, 0, 0, 0, 0, 0, 0, 0],
    [2, 2, 2, 0, 0, 0, 0, 0, 0, 0],
    [2, 2, 1, 0, 0, 0, 0, 0, 0, 0],
    [2, 2, 0, 0, 0, 0, 0, 0, 0, 0],
    [2, 1, 0, 0, 0, 0, 0, 0, 0, 0],
    [2, 0, 0, 0, 0, 0, 0, 0, 0, 0],
    [1, 0, 0, 0, 0, 0, 0, 0, 0, 0],
    [0, 0, 0, 0, 0, 0, 0, 0, 0, 0]]),
  (21, [[2, 2, 6, 2, 6, 1, 2, 0, 0, 0],
    [2, 2, 6, 2, 6, 1, 1, 0, 0, 0],
    [2, 2, 6, 2, 6, 1, 0, 0, 0, 0],
    [2, 2, 6, 2, 6, 0, 0, 0, 0, 0],
    [2, 2, 6, 2, 5, 0, 0, 0, 0, 0],
    [2, 2, 6, 2, 4, 0, 0, 0, 0, 0],
    [2, 2, 6, 2, 3, 0, 0, 0, 0, 0],
    [2, 2, 6, 2, 2, 0, 0, 0, 0, 0],
    [2, 2, 6, 2, 1, 0, 0, 0, 0, 0],
    [2, 2, 6, 2, 0, 0, 0, 0, 0, 0],
    [2, 2, 6, 1, 0, 0, 0, 0, 0, 0],
    [2, 2, 6, 0, 0, 0, 0, 0, 0, 0],
    [2, 2, 5, 0, 0, 0, 0, 0, 0, 0],
    [2, 2, 4, 0, 0, 0, 0, 0, 0, 0],
    [2, 2, 3, 0, 0, 0, 0, 0, 0, 0],
    [2, 2, 2, 0, 0, 0, 0, 0, 0, 0],
    [2, 2, 1, 0, 0, 0, 0, 0, 0, 0],
    [2, 2, 0, 0, 0, 0, 0, 0, 0, 0],
    [2, 1, 0, 0, 0, 0, 0, 0, 0, 0],
    [2, 0, 0, 0, 0, 0, 0, 0, 0, 0],
    [1, 0, 0, 0, 0, 0, 0, 0, 0, 0],
    [0, 0, 0, 0, 0, 0, 0, 0, 0, 0]]),
  (22, [[2, 2, 6, 2, 6, 2, 2, 0, 0, 0],
    [2, 2, 6, 2, 6, 2, 1, 0, 0, 0],
    [2, 2, 6, 2, 6, 2, 0, 0, 0, 0],
    [2, 2, 6, 2, 6, 1, 0, 0, 0, 0],
    [2, 2, 6, 2, 6, 0, 0, 0, 0, 0],
    [2, 2, 6, 2, 5, 0, 0, 0, 0, 0],
    [2, 2, 6, 2, 4, 0, 0, 0, 0, 0],
    [2, 2, 6, 2, 3, 0, 0, 0, 0, 0],
    [2, 2, 6, 2, 2, 0, 0, 0, 0, 0],
    [2, 2, 6, 2, 1, 0, 0, 0, 0, 0],
    [2, 2, 6, 2, 0, 0, 0, 0, 0, 0],
    [2, 2, 6, 1, 0, 0, 0, 0, 0, 0],
    [2, 2, 6, 0, 0, 0, 0, 0, 0, 0],
    [2, 2, 5, 0, 0, 0, 0, 0, 0, 0],
    [2, 2, 4, 0, 0, 0, 0, 0, 0, 0],
    [2, 2, 3, 0, 0, 0, 0, 0, 0, 0],
    [2, 2, 2, 0, 0, 0, 0, 0, 0, 0],
    [2, 2, 1, 0, 0, 0, 0, 0, 0, 0],
    [2, 2, 0, 0, 0, 0, 0, 0, 0, 0],
    [2, 1, 0, 0, 0, 0, 0, 0, 0, 0],
    [2, 0, 0, 0, 0, 0, 0, 0, 0, 0],
    [1, 0, 0, 0, 0, 0, 0, 0, 0, 0],
    [0, 0, 0, 0, 0, 0, 0, 0, 0, 0]]),
  (23, [[2, 2, 6, 2, 6, 3, 2, 0, 0, 0],
    [2, 2, 6, 2, 6, 3, 1, 0, 0, 0],
    [2, 2, 6, 2, 6, 3, 0, 0, 0, 0],
    [2, 2, 6, 2, 6, 2, 0, 0, 0, 0],
    [2, 2, 6, 2, 6, 1, 0, 0, 0, 0],
    [2, 2, 6, 2, 6, 0, 0, 0, 0, 0],
    [2, 2, 6, 2, 5, 0, 0, 0, 0, 0],
    [2, 2, 6, 2, 4, 0, 0, 0, 0, 0],
    [2, 2, 6, 2, 3, 0, 0, 0, 0, 0],
    [2, 2, 6, 2, 2, 0, 0, 0, 0, 0],
    [2, 2, 6, 2, 1, 0, 0, 0, 0, 0],
    [2, 2, 6, 2, 0, 0, 0, 0, 0, 0],
    [2, 2, 6, 1, 0, 0, 0, 0, 0, 0],
    [2, 2, 6, 0, 0, 0, 0, 0, 0, 0],
    [2, 2, 5, 0, 0, 0, 0, 0, 0, 0],
    [2, 2, 4, 0, 0, 0, 0, 0, 0, 0],
    [2, 2, 3, 0, 0, 0, 0, 0, 0, 0],
    [2, 2, 2, 0, 0, 0, 0, 0, 0, 0],
    [2, 2, 1, 0, 0, 0, 0, 0, 0, 0],
    [2, 2, 0, 0, 0, 0, 0, 0, 0, 0],
    [2, 1, 0, 0, 0, 0, 0, 0, 0, 0],
    [2, 0, 0, 0, 0, 0, 0, 0, 0, 0],
    [1, 0, 0, 0, 0, 0, 0, 0, 0, 0],
    [0, 0, 0, 0, 0, 0, 0, 0, 0, 0]]),
  (24, [[2, 2, 6, 2, 6, 5, 1, 0, 0, 0],
    [2, 2, 6, 2, 6, 5, 0, 0, 0, 0],
    [2, 2, 6, 2, 6, 4, 0, 0, 0, 0],
    [2, 2, 6, 2, 6, 3, 0, 0, 0, 0],
    [2, 2, 6, 2, 6, 2, 0, 0, 0, 0],
    [2, 2, 6, 2, 6, 1, 0, 0, 0, 0],
    [2, 2, 6, 2, 6, 0, 0, 0, 0, 0],
    [2, 2, 6, 2, 5, 0, 0, 0, 0, 0],
    [2, 2, 6, 2, 4, 0, 0, 0, 0, 0],
    [2, 2, 6, 2, 3, 0, 0, 0, 0, 0],
    [2, 2, 6, 2, 2, 0, 0, 0, 0, 0],
    [2, 2, 6, 2, 1, 0, 0, 0, 0, 0],
    [2, 2, 6, 2, 0, 0, 0, 0, 0, 0],
    [2, 2, 6, 1, 0, 0, 0, 0, 0, 0],
    [2, 2, 6, 0, 0, 0, 0, 0, 0, 0],
    [2, 2, 5, 0, 0, 0, 0, 0, 0, 0],
    [2, 2, 4, 0, 0, 0, 0, 0, 0, 0],
    [2, 2, 3, 0, 0, 0, 0, 0, 0, 0],
    [2, 2, 2, 0, 0, 0, 0, 0, 0, 0],
    [2, 2, 1, 0, 0, 0, 0, 0, 0, 0],
    [2, 2, 0, 0, 0, 0, 0, 0, 0, 0],
    [2, 1, 0, 0, 0, 0, 0, 0, 0, 0],
    [2, 0, 0, 0, 0, 0, 0, 0, 0, 0],
    [1, 0, 0, 0, 0, 0, 0, 0, 0, 0],
    [0, 0, 0, 0, 0, 0, 0, 0, 0, 0]]),
  (25, [[2, 2, 6, 2, 6, 5, 2, 0, 0, 0],
    [2, 2, 6, 2, 6, 5, 1, 0, 0, 0],
    [2, 2, 6, 2, 6, 5, 0, 0, 0, 0],
    [2, 2, 6, 2, 6, 4, 0, 0, 0, 0],
    [2, 2, 6, 2, 6, 3, 0, 0, 0, 0],
    [2, 2, 6, 2, 6, 2, 0, 0, 0, 0],
    [2, 2, 6, 2, 6, 1, 0, 0, 0, 0],
    [2, 2, 6, 2, 6, 0, 0, 0, 0, 0],
    [2, 2, 6, 2, 5, 0, 0, 0, 0, 0],
    [2, 2, 6, 2, 4, 0, 0, 0, 0, 0],
    [2, 2, 6, 2, 3, 0, 0, 0, 0, 0],
    [2, 2, 6, 2, 2, 0, 0, 0, 0, 0],
    [2, 2, 6, 2, 1, 0, 0, 0, 0, 0],
    [2, 2, 6, 2, 0, 0, 0, 0, 0, 0],
    [2, 2, 6, 1, 0, 0, 0, 0, 0, 0],
    [2, 2, 6, 0, 0, 0, 0, 0, 0, 0],
    [2, 2, 5, 0, 0, 0, 0, 0, 0, 0],
    [2, 2, 4, 0, 0, 0, 0, 0, 0, 0],
    [2, 2, 3, 0, 0, 0, 0, 0, 0, 0],
    [2, 2, 2, 0, 0, 0, 0, 0, 0, 0],
    [2, 2, 1, 0, 0, 0, 0, 0, 0, 0],
    [2, 2, 0, 0, 0, 0, 0, 0, 0, 0],
    [2, 1, 0, 0, 0, 0, 0, 0, 0, 0],
    [2, 0, 0, 0, 0, 0, 0, 0, 0, 0],
    [1, 0, 0, 0, 0, 0, 0, 0, 0, 0],
    [0, 0, 0, 0, 0, 0, 0, 0, 0, 0]]),
  (26, [[2, 2, 6, 2, 6, 6, 2, 0, 0, 0],
    [2, 2, 6, 2, 6, 6, 1, 0, 0, 0],
    [2, 2, 6, 2, 6, 6, 0, 0, 0, 0],
    [2, 2, 6, 2, 6, 5, 0, 0, 0, 0],
    [2, 2, 6, 2, 6, 4, 0, 0, 0, 0],
    [2, 2, 6, 2, 6, 3, 0, 0, 0, 0],
    [2, 2, 6, 2, 6, 2, 0, 0, 0, 0],
    [2, 2, 6, 2, 6, 1, 0, 0, 0, 0],
    [2, 2, 6, 2, 6, 0, 0, 0, 0, 0],
    [2, 2, 6, 2, 5, 0, 0, 0, 0, 0],
    [2, 2, 6, 2, 4, 0, 0, 0, 0, 0],
    [2, 2, 6, 2, 3, 0, 0, 0, 0, 0],
    [2, 2, 6, 2, 2, 0, 0, 0, 0, 0],
    [2, 2, 6, 2, 1, 0, 0, 0, 0, 0],
    [2, 2, 6, 2, 0, 0, 0, 0, 0, 0],
    [2, 2, 6, 1, 0, 0, 0, 0, 0, 0],
    [2, 2, 6, 0, 0, 0, 0, 0, 0, 0],
    [2, 2, 5, 0, 0, 0, 0, 0, 0, 0],
    [2, 2, 4, 0, 0, 0, 0, 0, 0, 0],
    [2, 2, 3, 0, 0, 0, 0, 0, 0, 0],
    [2, 2, 2, 0, 0, 0, 0, 0, 0, 0],
    [2, 2, 1, 0, 0, 0, 0, 0, 0, 0],
    [2, 2, 0, 0, 0, 0, 0, 0, 0, 0],
    [2, 1, 0, 0, 0, 0, 0, 0, 0, 0],
    [2, 0, 0, 0, 0, 0, 0, 0, 0, 0],
    [1, 0, 0, 0, 0, 0, 0, 0, 0, 0],
    [0, 0, 0, 0, 0, 0, 0, 0, 0, 0]]),
  (27, [[2, 2, 6, 2, 6, 7, 2, 0, 0, 0],
    [2, 2, 6, 2, 6, 7, 1, 0, 0, 0],
    [2, 2, 6, 2, 6, 7, 0, 0, 0, 0],
    [2, 2, 6, 2, 6, 6, 0, 0, 0, 0],
    [2, 2, 6, 2, 6, 5, 0, 0, 0, 0],
    [2, 2, 6, 2, 6, 4, 0, 0, 0, 0],
    [2, 2, 6, 2, 6, 3, 0, 0, 0, 0],
    [2, 2, 6, 2, 6, 2, 0, 0, 0, 0],
    [2, 2, 6, 2, 6, 1, 0, 0, 0, 0],
    [2, 2, 6, 2, 6, 0, 0, 0, 0, 0],
    [2, 2, 6, 2, 5, 0, 0, 0, 0, 0],
    [2, 2, 6, 2, 4, 0, 0, 0, 0, 0],
    [2, 2, 6, 2, 3, 0, 0, 0, 0, 0],
    [2, 2, 6, 2, 2, 0, 0, 0, 0, 0],
    [2, 2, 6, 2, 1, 0, 0, 0, 0, 0],
    [2, 2, 6, 2, 0, 0, 0, 0, 0, 0],
    [2, 2, 6, 1, 0, 0, 0, 0, 0, 0],
    [2, 2, 6, 0, 0, 0, 0, 0, 0, 0],
    [2, 2, 5, 0, 0, 0, 0, 0, 0, 0],
    [2, 2, 4, 0, 0, 0, 0, 0, 0, 0],
    [2, 2, 3, 0, 0, 0, 0, 0, 0, 0],
    [2, 2, 2, 0, 0, 0, 0, 0, 0, 0],
    [2, 2, 1, 0, 0, 0, 0, 0, 0, 0],
    [2, 2, 0, 0, 0, 0, 0, 0, 0, 0],
    [2, 1, 0, 0, 0, 0, 0, 0, 0, 0],
    [2, 0, 0, 0, 0, 0, 0, 0, 0, 0],
    [1, 0, 0, 0, 0, 0, 0, 0, 0, 0],
    [0, 0, 0, 0, 0, 0, 0, 0, 0, 0]]),
  (28, [[2, 2, 6, 2, 6, 8, 2, 0, 0, 0],
    [2, 2, 6, 2, 6, 8, 1, 0, 0, 0],
    [2, 2, 6, 2, 6, 8, 0, 0, 0, 0],
    [2, 2, 6, 2, 6, 7, 0, 0, 0, 0],
    [2, 2, 6, 2, 6, 6, 0, 0, 0, 0],
    [2, 2, 6, 2, 6, 5, 0, 0, 0, 0],
    [2, 2, 6, 2, 6, 4, 0, 0, 0, 0],
    [2, 2, 6, 2, 6, 3, 0, 0, 0, 0],
    [2, 2, 6, 2, 6, 2, 0, 0, 0, 0],
    [2, 2, 6, 2, 6, 1, 0, 0, 0, 0],
    [2, 2, 6, 2, 6, 0, 0, 0, 0, 0],
    [2, 2, 6, 2, 5, 0, 0, 0, 0, 0],
    [2, 2, 6, 2, 4, 0, 0, 0, 0, 0],
    [2, 2, 6, 2, 3, 0, 0, 0, 0, 0],
    [2, 2, 6, 2, 2, 0, 0, 0, 0, 0],
    [2, 2, 6, 2, 1, 0, 0, 0, 0, 0],
    [2, 2, 6, 2, 0, 0, 0, 0, 0, 0],
    [2, 2, 6, 1, 0, 0, 0, 0, 0, 0],
    [2, 2, 6, 0, 0, 0, 0, 0, 0, 0],
    [2, 2, 5, 0, 0, 0, 0, 0, 0, 0],
    [2, 2, 4, 0, 0, 0, 0, 0, 0, 0],
    [2, 2, 3, 0, 0, 0, 0, 0, 0, 0],
    [2, 2, 2, 0, 0, 0, 0, 0, 0, 0],
    [2, 2, 1, 0, 0, 0, 0, 0, 0, 0],
    [2, 2, 0, 0, 0, 0, 0, 0, 0, 0],
    [2, 1, 0, 0, 0, 0, 0, 0, 0, 0],
    [2, 0, 0, 0, 0, 0, 0, 0, 0, 0],
    [1, 0, 0, 0, 0, 0, 0, 0, 0, 0],
    [0, 0, 0, 0, 0, 0, 0, 0, 0, 0]]),
  (29, [[2, 2, 6, 2, 6, 10, 1, 0, 0, 0],
    [2, 2, 6, 2, 6, 10, 0, 0, 0, 0],
    [2, 2, 6, 2, 6, 9, 0, 0, 0, 0],
    [2, 2, 6, 2, 6, 8, 0, 0, 0, 0],
    [2, 2, 6, 2, 6, 7, 0, 0, 0, 0],
    [2, 2, 6, 2, 6, 6, 0, 0, 0, 0],
    [2, 2, 6, 2, 6, 5, 0, 0, 0, 0],
    [2, 2, 6, 2, 6, 4, 0, 0, 0, 0],
    [2, 2, 6, 2, 6, 3, 0, 0, 0, 0],
    [2, 2, 6, 2, 6, 2, 0, 0, 0, 0],
    [2, 2, 6, 2, 6, 1, 0, 0, 0, 0],
    [2, 2, 6, 2, 6, 0, 0, 0, 0, 0],
    [2, 2, 6, 2, 5, 0, 0, 0, 0, 0],
    [2, 2, 6, 2, 4, 0, 0, 0, 0, 0],
    [2, 2, 6, 2, 3, 0, 0, 0, 0, 0],
    [2, 2, 6, 2, 2, 0, 0, 0, 0, 0],
    [2, 2, 6, 2, 1, 0, 0, 0, 0, 0],
    [2, 2, 6, 2, 0, 0, 0, 0, 0, 0],
    [2, 2, 6, 1, 0, 0, 0, 0, 0, 0],
    [2, 2, 6, 0, 0, 0, 0, 0, 0, 0],
    [2, 2, 5, 0, 0, 0, 0, 0, 0, 0],
    [2, 2, 4, 0, 0, 0, 0, 0, 0, 0],
    [2, 2, 3, 0, 0, 0, 0, 0, 0, 0],
    [2, 2, 2, 0, 0, 0, 0, 0, 0, 0],
    [2, 2, 1, 0, 0, 0, 0, 0, 0, 0],
    [2, 2, 0, 0, 0, 0, 0, 0, 0, 0],
    [2, 1, 0, 0, 0, 0, 0, 0, 0, 0],
    [2, 0, 0, 0, 0, 0, 0, 0, 0, 0],
    [1, 0, 0, 0, 0, 0, 0, 0, 0, 0],
    [0, 0, 0, 0, 0, 0, 0, 0, 0, 0]]),
  (30, [[2, 2, 6, 2, 6, 10, 2, 0, 0, 0],
    [2, 2, 6, 2, 6, 10, 1, 0, 0, 0],
    [2, 2, 6, 2, 6, 10, 0, 0, 0, 0],
    [2, 2, 6, 2, 6, 9, 0, 0, 0, 0],
    [2, 2, 6, 2, 6, 8, 0, 0, 0, 0],
    [2, 2, 6, 2, 6, 7, 0, 0, 0, 0],
    [2, 2, 6, 2, 6, 6, 0, 0, 0, 0],
    [2, 2, 6, 2, 6, 5, 0, 0, 0, 0],
    [2, 2, 6, 2, 6, 4, 0, 0, 0, 0],
    [2, 2, 6, 2, 6, 3, 0, 0, 0, 0],
    [2, 2, 6, 2, 6, 2, 0, 0, 0, 0],
    [2, 2, 6, 2, 6, 1, 0, 0, 0, 0],
    [2, 2, 6, 2, 6, 0, 0, 0, 0, 0],
    [2, 2, 6, 2, 5, 0, 0, 0, 0, 0],
    [2, 2, 6, 2, 4, 0, 0, 0, 0, 0],
    [2, 2, 6, 2, 3, 0, 0, 0, 0, 0],
    [2, 2, 6, 2, 2, 0, 0, 0, 0, 0],
    [2, 2, 6, 2, 1, 0, 0, 0, 0, 0],
    [2, 2, 6, 2, 0, 0, 0, 0, 0, 0],
    [2, 2, 6, 1, 0, 0, 0, 0, 0, 0],
    [2, 2, 6, 0, 0, 0, 0, 0, 0, 0],
    [2, 2, 5, 0, 0, 0, 0, 0, 0, 0],
    [2, 2, 4, 0, 0, 0, 0, 0, 0, 0],
    [2, 2, 3, 0, 0, 0, 0, 0, 0, 0],
    [2, 2, 2, 0, 0, 0, 0, 0, 0, 0],
    [2, 2, 1, 0, 0, 0, 0, 0, 0, 0],
    [2, 2, 0, 0, 0, 0, 0, 0, 0, 0],
    [2, 1, 0, 0, 0, 0, 0, 0, 0, 0],
    [2, 0, 0, 0, 0, 0, 0, 0, 0, 0],
    [1, 0, 0, 0, 0, 0, 0, 0, 0, 0],
    [0, 0, 0, 0, 0, 0, 0, 0, 0, 0]]),
  (31, [[2, 2, 6, 2, 6, 10, 2, 1, 0, 0],
    [2, 2, 6, 2, 6, 10, 2, 0, 0, 0],
    [2, 2, 6, 2, 6, 10, 1, 0, 0, 0],
    [2, 2, 6, 2, 6, 10, 0, 0, 0, 0],
    [2, 2, 6, 2, 6, 9, 0, 0, 0, 0],
    [2, 2, 6, 2, 6, 8, 0, 0, 0, 0],
    [2, 2, 6, 2, 6, 7, 0, 0, 0, 0],
    [2, 2, 6, 2, 6, 6, 0, 0, 0, 0],
    [2, 2, 6, 2, 6, 5, 0, 0, 0, 0],
    [2, 2, 6, 2, 6, 4, 0, 0, 0, 0],
    [2, 2, 6, 2, 6, 3, 0, 0, 0, 0],
    [2, 2, 6, 2, 6, 2, 0, 0, 0, 0],
    [2, 2, 6, 2, 6, 1, 0, 0, 0, 0],
    [2, 2, 6, 2, 6, 0, 0, 0, 0, 0],
    [2, 2, 6, 2, 5, 0, 0, 0, 0, 0],
    [2, 2, 6, 2, 4, 0, 0, 0, 0, 0],
    [2, 2, 6, 2, 3, 0, 0, 0, 0, 0],
    [2, 2, 6, 2, 2, 0, 0, 0, 0, 0],
    [2, 2, 6, 2, 1, 0, 0, 0, 0, 0],
    [2, 2, 6, 2, 0, 0, 0, 0, 0, 0],
    [2, 2, 6, 1, 0, 0, 0, 0, 0, 0],
    [2, 2, 6, 0, 0, 0, 0, 0, 0, 0],
    [2, 2, 5, 0, 0, 0, 0, 0, 0, 0],
    [2, 2, 4, 0, 0, 0, 0, 0, 0, 0],
    [2, 2, 3, 0, 0, 0, 0, 0, 0, 0],
    [2, 2, 2, 0, 0, 0, 0, 0, 0, 0],
    [2, 2, 1, 0, 0, 0, 0, 0, 0, 0],
    [2, 2, 0, 0, 0, 0, 0, 0, 0, 0],
    [2, 1, 0, 0, 0, 0, 0, 0, 0, 0],
    [2, 0, 0, 0, 0, 0, 0, 0, 0, 0],
    [1, 0, 0, 0, 0, 0, 0, 0, 0, 0],
    [0, 0, 0, 0, 0, 0, 0, 0, 0, 0]]),
  (32, [[2, 2, 6, 2, 6, 10, 2, 2, 0, 0],
    [2, 2, 6, 2, 6, 10, 2, 1, 0, 0],
    [2, 2, 6, 2, 6, 10, 2, 0, 0, 0],
    [2, 2, 6, 2, 6, 10, 1, 0, 0, 0],
    [2, 2, 6, 2, 6, 10, 0, 0, 0, 0],
    [2, 2, 6, 2, 6, 9, 0, 0, 0, 0],
    [2, 2, 6, 2, 6, 8, 0, 0, 0, 0],
    [2, 2, 6, 2, 6, 7, 0, 0, 0, 0],
    [2, 2, 6, 2, 6, 6, 0, 0, 0, 0],
    [2, 2, 6, 2, 6, 5, 0, 0, 0, 0],
    [2, 2, 6, 2, 6, 4, 0, 0, 0, 0],
    [2, 2, 6, 2, 6, 3, 0, 0, 0, 0],
    [2, 2, 6, 2, 6, 2, 0, 0, 0, 0],
    [2, 2, 6, 2, 6, 1, 0, 0, 0, 0],
    [2, 2, 6, 2, 6, 0, 0, 0, 0, 0],
    [2, 2, 6, 2, 5, 0, 0, 0, 0, 0],
    [2, 2, 6, 2, 4, 0, 0, 0, 0, 0],
    [2, 2, 6, 2, 3, 0, 0, 0, 0, 0],
    [2, 2, 6, 2, 2, 0, 0, 0, 0, 0],
    [2, 2, 6, 2, 1, 0, 0, 0, 0, 0],
    [2, 2, 6, 2, 0, 0, 0, 0, 0, 0],
    [2, 2, 6, 1, 0, 0, 0, 0, 0, 0],
    [2, 2, 6, 0, 0, 0, 0, 0, 0, 0],
    [2, 2, 5, 0, 0, 0, 0, 0, 0, 0],
    [2, 2, 4, 0, 0, 0, 0, 0, 0, 0],
    [2, 2, 3, 0, 0, 0, 0, 0, 0, 0],
    [2, 2, 2, 0, 0, 0, 0, 0, 0, 0],
    [2, 2, 1, 0, 0, 0, 0, 0, 0, 0],
    [2, 2, 0, 0, 0, 0, 0, 0, 0, 0],
    [2, 1, 0, 0, 0, 0, 0, 0, 0, 0],
    [2, 0, 0, 0, 0, 0, 0, 0, 0, 0],
    [1, 0, 0, 0, 0, 0, 0, 0, 0, 0],
    [0, 0, 0, 0, 0, 0, 0, 0, 0, 0]]),
  (33, [[2, 2, 6, 2, 6, 10, 2, 3, 0, 0],
    [2, 2, 6, 2, 6, 10, 2, 2, 0, 0],
    [2, 2, 6, 2, 6, 10, 2, 1, 0, 0],
    [2, 2, 6, 2, 6, 10, 2, 0, 0, 0],
    [2, 2, 6, 2, 6, 10, 1, 0, 0, 0],
    [2, 2, 6, 2, 6, 10, 0, 0, 0, 0],
    [2, 2, 6, 2, 6, 9, 0, 0, 0, 0],
    [2, 2, 6, 2, 6, 8, 0, 0, 0, 0],
    [2, 2, 6, 2, 6, 7, 0, 0, 0, 0],
    [2, 2, 6, 2, 6, 6, 0, 0, 0, 0],
    [2, 2, 6, 2, 6, 5, 0, 0, 0, 0],
    [2, 2, 6, 2, 6, 4, 0, 0, 0, 0],
    [2, 2, 6, 2, 6, 3, 0, 0, 0, 0],
    [2, 2, 6, 2, 6, 2, 0, 0, 0, 0],
    [2, 2, 6, 2, 6, 1, 0, 0, 0, 0],
    [2, 2, 6, 2, 6, 0, 0, 0, 0, 0],
    [2, 2, 6, 2, 5, 0, 0, 0, 0, 0],
    [2, 2, 6, 2, 4, 0, 0, 0, 0, 0],
    [2, 2, 6, 2, 3, 0, 0, 0, 0, 0],
    [2, 2, 6, 2, 2, 0, 0, 0, 0, 0],
    [2, 2, 6, 2, 1, 0, 0, 0, 0, 0],
    [2, 2, 6, 2, 0, 0, 0, 0, 0, 0],
    [2, 2, 6, 1, 0, 0, 0, 0, 0, 0],
    [2, 2, 6, 0, 0, 0, 0, 0, 0, 0],
    [2, 2, 5, 0, 0, 0, 0, 0, 0, 0],
    [2, 2, 4, 0, 0, 0, 0, 0, 0, 0],
    [2, 2, 3, 0, 0, 0, 0, 0, 0, 0],
    [2, 2, 2, 0, 0, 0, 0, 0, 0, 0],
    [2, 2, 1, 0, 0, 0, 0, 0, 0, 0],
    [2, 2, 0, 0, 0, 0, 0, 0, 0, 0],
    [2, 1, 0, 0, 0, 0, 0, 0, 0, 0],
    [2, 0, 0, 0, 0, 0, 0, 0, 0, 0],
    [1, 0, 0, 0, 0, 0, 0, 0, 0, 0],
    [0, 0, 0, 0, 0, 0, 0, 0, 0, 0]]),
  (34, [[2, 2, 6, 2, 6, 10, 2, 4, 0, 0],
    [2, 2, 6, 2, 6, 10, 2, 3, 0, 0],
    [2, 2, 6, 2, 6, 10, 2, 2, 0, 0],
    [2, 2, 6, 2, 6, 10, 2, 1, 0, 0],
    [2, 2, 6, 2, 6, 10, 2, 0, 0, 0],
    [2, 2, 6, 2, 6, 10, 1, 0, 0, 0],
    [2, 2, 6, 2, 6, 10, 0, 0, 0, 0],
    [2, 2, 6, 2, 6, 9, 0, 0, 0, 0],
    [2, 2, 6, 2, 6, 8, 0, 0, 0, 0],
    [2, 2, 6, 2, 6, 7, 0, 0, 0, 0],
    [2, 2, 6, 2, 6, 6, 0, 0, 0, 0],
    [2, 2, 6, 2, 6, 5, 0, 0, 0, 0],
    [2, 2, 6, 2, 6, 4, 0, 0, 0, 0],
    [2, 2, 6, 2, 6, 3, 0, 0, 0, 0],
    [2, 2, 6, 2, 6, 2, 0, 0, 0, 0],
    [2, 2, 6, 2, 6, 1, 0, 0, 0, 0],
    [2, 2, 6, 2, 6, 0, 0, 0, 0, 0],
    [2, 2, 6, 2, 5, 0, 0, 0, 0, 0],
    [2, 2, 6, 2, 4, 0, 0, 0, 0, 0],
    [2, 2, 6, 2, 3, 0, 0, 0, 0, 0],
    [2, 2, 6, 2, 2, 0, 0, 0, 0, 0],
    [2, 2, 6, 2, 1, 0, 0, 0, 0, 0],
    [2, 2, 6, 2, 0, 0, 0, 0, 0, 0],
    [2, 2, 6, 1, 0, 0, 0, 0, 0, 0],
    [2, 2, 6, 0, 0, 0, 0, 0, 0, 0],
    [2, 2, 5, 0, 0, 0, 0, 0, 0, 0],
    [2, 2, 4, 0, 0, 0, 0, 0, 0, 0],
    [2, 2, 3, 0, 0, 0, 0, 0, 0, 0],
    [2, 2, 2, 0, 0, 0, 0, 0, 0, 0],
    [2, 2, 1, 0, 0, 0, 0, 0, 0, 0],
    [2, 2, 0, 0, 0, 0, 0, 0, 0, 0],
    [2, 1, 0, 0, 0, 0, 0, 0, 0, 0],
    [2, 0, 0, 0, 0, 0, 0, 0, 0, 0],
    [1, 0, 0, 0, 0, 0, 0, 0, 0, 0],
    [0, 0, 0, 0, 0, 0, 0, 0, 0, 0]]),
  (35, [[2, 2, 6, 2, 6, 10, 2, 5, 0, 0],
    [2, 2, 6, 2, 6, 10, 2, 4, 0, 0],
    [2, 2, 6, 2, 6, 10, 2, 3, 0, 0],
    [2, 2, 6, 2, 6, 10, 2, 2, 0, 0],
    [2, 2, 6, 2, 6, 10, 2, 1, 0, 0],
    [2, 2, 6, 2, 6, 10, 2, 0, 0, 0],
    [2, 2, 6, 2, 6, 10, 1, 0, 0, 0],
    [2, 2, 6, 2, 6, 10, 0, 0, 0, 0],
    [2, 2, 6, 2, 6, 9, 0, 0, 0, 0],
    [2, 2, 6, 2, 6, 8, 0, 0, 0, 0],
    [2, 2, 6, 2, 6, 7, 0, 0, 0, 0],
    [2, 2, 6, 2, 6, 6, 0, 0, 0, 0],
    [2, 2, 6, 2, 6, 5, 0, 0, 0, 0],
    [2, 2, 6, 2, 6, 4, 0, 0, 0, 0],
    [2, 2, 6, 2, 6, 3, 0, 0, 0, 0],
    [2, 2, 6, 2, 6, 2, 0, 0, 0, 0],
    [2, 2, 6, 2, 6, 1, 0, 0, 0, 0],
    [2, 2, 6, 2, 6, 0, 0, 0, 0, 0],
    [2, 2, 6, 2, 5, 0, 0, 0, 0, 0],
    [2, 2, 6, 2, 4, 0, 0, 0, 0, 0],
    [2, 2, 6, 2, 3, 0, 0, 0, 0, 0],
    [2, 2, 6, 2, 2, 0, 0, 0, 0, 0],
    [2, 2, 6, 2, 1, 0, 0, 0, 0, 0],
    [2, 2, 6, 2, 0, 0, 0, 0, 0, 0],
    [2, 2, 6, 1, 0, 0, 0, 0, 0, 0],
    [2, 2, 6, 0, 0, 0, 0, 0, 0, 0],
    [2, 2, 5, 0, 0, 0, 0, 0, 0, 0],
    [2, 2, 4, 0, 0, 0, 0, 0, 0, 0],
    [2, 2, 3, 0, 0, 0, 0, 0, 0, 0],
    [2, 2, 2, 0, 0, 0, 0, 0, 0, 0],
    [2, 2, 1, 0, 0, 0, 0, 0, 0, 0],
    [2, 2, 0, 0, 0, 0, 0, 0, 0, 0],
    [2, 1, 0, 0, 0, 0, 0, 0, 0, 0],
    [2, 0, 0, 0, 0, 0, 0, 0, 0, 0],
    [1, 0, 0, 0, 0, 0, 0, 0, 0, 0],
    [0, 0, 0, 0, 0, 0, 0, 0, 0, 0]]),
  (36, [[2, 2, 6, 2, 6, 10, 2, 6, 0, 0],
    [2, 2, 6, 2, 6, 10, 2, 5, 0, 0],
    [2, 2, 6, 2, 6, 10, 2, 4, 0, 0],
    [2, 2, 6, 2, 6, 10, 2, 3, 0, 0],
    [2, 2, 6, 2, 6, 10, 2, 2, 0, 0],
    [2, 2, 6, 2, 6, 10, 2, 1, 0, 0],
    [2, 2, 6, 2, 6, 10, 2, 0, 0, 0],
    [2, 2, 6, 2, 6, 10, 1, 0, 0, 0],
    [2, 2, 6, 2, 6, 10, 0, 0, 0, 0],
    [2, 2, 6, 2, 6, 9, 0, 0, 0, 0],
    [2, 2, 6, 2, 6, 8, 0, 0, 0, 0],
    [2, 2, 6, 2, 6, 7, 0, 0, 0, 0],
    [2, 2, 6, 2, 6, 6, 0, 0, 0, 0],
    [2, 2, 6, 2, 6, 5, 0, 0, 0, 0],
    [2, 2, 6, 2, 6, 4, 0, 0, 0, 0],
    [2, 2, 6, 2, 6, 3, 0, 0, 0, 0],
    [2, 2, 6, 2, 6, 2, 0, 0, 0, 0],
    [2, 2, 6, 2, 6, 1, 0, 0, 0, 0],
    [2, 2, 6, 2, 6, 0, 0, 0, 0, 0],
    [2, 2, 6, 2, 5, 0, 0, 0, 0, 0],
    [2, 2, 6, 2, 4, 0, 0, 0, 0, 0],
    [2, 2, 6, 2, 3, 0, 0, 0, 0, 0],
    [2, 2, 6, 2, 2, 0, 0, 0, 0, 0],
    [2, 2, 6, 2, 1, 0, 0, 0, 0, 0],
    [2, 2, 6, 2, 0, 0, 0, 0, 0, 0],
    [2, 2, 6, 1, 0, 0, 0, 0, 0, 0],
    [2, 2, 6, 0, 0, 0, 0, 0, 0, 0],
    [2, 2, 5, 0, 0, 0, 0, 0, 0, 0],
    [2, 2, 4, 0, 0, 0, 0, 0, 0, 0],
    [2, 2, 3, 0, 0, 0, 0, 0, 0, 0],
    [2, 2, 2, 0, 0, 0, 0, 0, 0, 0],
    [2, 2, 1, 0, 0, 0, 0, 0, 0, 0],
    [2, 2, 0, 0, 0, 0, 0, 0, 0, 0],
    [2, 1, 0, 0, 0, 0, 0, 0, 0, 0],
    [2, 0, 0, 0, 0, 0, 0, 0, 0, 0],
    [1, 0, 0, 0, 0, 0, 0, 0, 0, 0],
    [0, 0, 0, 0, 0, 0, 0, 0, 0, 0]])]

/-- One row of `ENERGY_DATA`: atomic number, symbol, and for each charge the configuration and the
ionisation energies per orbital, in units of `10⁻⁴` eV.  The configuration is a string like
`1s2 2s1` in the source and is written here as a list of pairs. -/
abbrev FacRow := Nat × String × List (Nat × List (String × Nat) × List (String × Nat))

/-- absorption_edges_ionized_ions_data.py 7-5726 `ENERGY_DATA`, the entry of H. -/
def fac1 : FacRow := (1, "H", [
    (0, [("1s", 1)], [("1s", 135984)])])

/-- absorption_edges_ionized_ions_data.py 7-5726 `ENERGY_DATA`, the entry of He. -/
def fac2 : FacRow := (2, "He", [
    (0, [("1s", 2)], [("1s", 234356)]),
    (1, [("1s", 1)], [("1s", 544178)])])

/-- absorption_edges_ionized_ions_data.py 7-5726 `ENERGY_DATA`, the entry of Li. -/
def fac3 : FacRow := (3, "Li", [
    (0, [("1s", 2), ("2s", 1)], [("1s", 631699), ("2s", 52261)]),
    (1, [("1s", 2)], [("1s", 744470)]),
    (2, [("1s", 1)], [("1s", 1224542)])])

/-- absorption_edges_ionized_ions_data.py 7-5726 `ENERGY_DATA`, the entry of Be. -/
def fac4 : FacRow := (4, "Be", [
    (0, [("1s", 2), ("2s", 2)], [("1s", 1230647), ("2s", 80671)]),
    (1, [("1s", 2), ("2s", 1)], [("1s", 1355175), ("2s", 180159)]),
    (2, [("1s", 2)], [("1s", 1526801)]),
    (3, [("1s", 1)], [("1s", 2177186)])])

/-- absorption_edges_ionized_ions_data.py 7-5726 `ENERGY_DATA`, the entry of B. -/
def fac5 : FacRow := (5, "B", [
    (0, [("1s", 2), ("2s", 2), ("2p", 1)], [("1s", 2001184), ("2p", 78499), ("2s", 111959)]),
    (1, [("1s", 2), ("2s", 2)], [("1s", 2173769), ("2s", 234767)]),
    (2, [("1s", 2), ("2s", 1)], [("1s", 2351806), ("2s", 377193)]),
    (3, [("1s", 2)], [("1s", 2581393)]),
    (4, [("1s", 1)], [("1s", 3402257)])])

/-- absorption_edges_ionized_ions_data.py 7-5726 `ENERGY_DATA`, the entry of C. -/
def fac6 : FacRow := (6, "C", [
    (0, [("1s", 2), ("2s", 2), ("2p", 2)], [("1s", 2952299), ("2p", 105897), ("2s", 144199)]),
    (1, [("1s", 2), ("2s", 2), ("2p", 1)], [("1s", 3147981), ("2p", 239733), ("2s", 288062)]),
    (2, [("1s", 2), ("2s", 2)], [("1s", 3390682), ("2s", 458261)]),
    (3, [("1s", 2), ("2s", 1)], [("1s", 3621163), ("2s", 642704)]),
    (4, [("1s", 2)], [("1s", 3908426)]),
    (5, [("1s", 1)], [("1s", 4899932)])])

/-- absorption_edges_ionized_ions_data.py 7-5726 `ENERGY_DATA`, the entry of N. -/
def fac7 : FacRow := (7, "N", [
    (0, [("1s", 2), ("2s", 2), ("2p", 3)], [("1s", 4085186), ("2p", 136559), ("2s", 178700)]),
    (1, [("1s", 2), ("2s", 2), ("2p", 2)], [("1s", 4303929), ("2p", 290253), ("2s", 343445)]),
    (2, [("1s", 2), ("2s", 2), ("2p", 1)], [("1s", 4569572), ("2p", 471089), ("2s", 534281)]),
    (3, [("1s", 2), ("2s", 2)], [("1s", 4880769), ("2s", 750493)]),
    (4, [("1s", 2), ("2s", 1)], [("1s", 5163236), ("2s", 976572)]),
    (5, [("1s", 2)], [("1s", 5508078)]),
    (6, [("1s", 1)], [("1s", 6670462)])])

/-- absorption_edges_ionized_ions_data.py 7-5726 `ENERGY_DATA`, the entry of O. -/
def fac8 : FacRow := (8, "O", [
    (0, [("1s", 2), ("2s", 2), ("2p", 4)], [("1s", 5433274), ("2p", 118023), ("2s", 268685)]),
    (1, [("1s", 2), ("2s", 2), ("2p", 3)], [("1s", 5642134), ("2p", 343747), ("2s", 401003)]),
    (2, [("1s", 2), ("2s", 2), ("2p", 2)], [("1s", 5930717), ("2p", 544419), ("2s", 612909)]),
    (3, [("1s", 2), ("2s", 2), ("2p", 1)], [("1s", 6264982), ("2p", 771601), ("2s", 849633)]),
    (4, [("1s", 2), ("2s", 2)], [("1s", 6643911), ("2s", 1111244)]),
    (5, [("1s", 2), ("2s", 1)], [("1s", 6978167), ("2s", 1378789)]),
    (6, [("1s", 2)], [("1s", 7380562)]),
    (7, [("1s", 1)], [("1s", 8714100)])])

/-- absorption_edges_ionized_ions_data.py 7-5726 `ENERGY_DATA`, the entry of F. -/
def fac9 : FacRow := (9, "F", [
    (0, [("1s", 2), ("2s", 2), ("2p", 5)], [("1s", 6968351), ("2p", 155214), ("2s", 373086)]),
    (1, [("1s", 2), ("2s", 2), ("2p", 4)], [("1s", 7199097), ("2p", 332470), ("2s", 522136)]),
    (2, [("1s", 2), ("2s", 2), ("2p", 3)], [("1s", 7474488), ("2p", 620529), ("2s", 693554)]),
    (3, [("1s", 2), ("2s", 2), ("2p", 2)], [("1s", 7831777), ("2p", 867645), ("2s", 951712)]),
    (4, [("1s", 2), ("2s", 2), ("2p", 1)], [("1s", 8233971), ("2p", 1140894), ("2s", 1233799)]),
    (5, [("1s", 2), ("2s", 2)], [("1s", 8680249), ("2s", 1540478)]),
    (6, [("1s", 2), ("2s", 1)], [("1s", 9066188), ("2s", 1849395)]),
    (7, [("1s", 2)], [("1s", 9526164)]),
    (8, [("1s", 1)], [("1s", 11031176)])])

/-- absorption_edges_ionized_ions_data.py 7-5726 `ENERGY_DATA`, the entry of Ne. -/
def fac10 : FacRow := (10, "Ne", [
    (0, [("1s", 2), ("2s", 2), ("2p", 6)], [("1s", 8690322), ("2p", 195456), ("2s", 491392)]),
    (1, [("1s", 2), ("2s", 2), ("2p", 5)], [("1s", 8943319), ("2p", 391787), ("2s", 657667)]),
    (2, [("1s", 2), ("2s", 2), ("2p", 4)], [("1s", 9240934), ("2p", 617170), ("2s", 846073)]),
    (3, [("1s", 2), ("2s", 2), ("2p", 3)], [("1s", 9581546), ("2p", 966288), ("2s", 1055661)]),
    (4, [("1s", 2), ("2s", 2), ("2p", 2)], [("1s", 10006860), ("2p", 1259544), ("2s", 1359451)]),
    (5, [("1s", 2), ("2s", 2), ("2p", 1)], [("1s", 10476617), ("2p", 1578870), ("2s", 1686647)]),
    (6, [("1s", 2), ("2s", 2)], [("1s", 10989989), ("2s", 2038211)]),
    (7, [("1s", 2), ("2s", 1)], [("1s", 11427553), ("2s", 2388458)]),
    (8, [("1s", 2)], [("1s", 11945165)]),
    (9, [("1s", 1)], [("1s", 13621997)])])

/-- absorption_edges_ionized_ions_data.py 7-5726 `ENERGY_DATA`, the entry of Na. -/
def fac11 : FacRow := (11, "Na", [
    (0, [("1s", 2), ("2s", 2), ("2p", 6), ("3s", 1)], [("1s", 10780023), ("2p", 362175), ("2s",
    715648), ("3s", 49888)]),
    (1, [("1s", 2), ("2s", 2), ("2p", 6)], [("1s", 10875133), ("2p", 454364), ("2s", 807460)]),
    (2, [("1s", 2), ("2s", 2), ("2p", 5)], [("1s", 11195053), ("2p", 698808), ("2s", 1012984)]),
    (3, [("1s", 2), ("2s", 2), ("2p", 4)], [("1s", 11558096), ("2p", 971469), ("2s", 1239681)]),
    (4, [("1s", 2), ("2s", 2), ("2p", 3)], [("1s", 11963067), ("2p", 1380565), ("2s", 1486844)]),
    (5, [("1s", 2), ("2s", 2), ("2p", 2)], [("1s", 12456046), ("2p", 1720012), ("2s", 1836082)]),
    (6, [("1s", 2), ("2s", 2), ("2p", 1)], [("1s", 12993076), ("2p", 2085443), ("2s", 2208140)]),
    (7, [("1s", 2), ("2s", 2)], [("1s", 13573441), ("2s", 2604520)]),
    (8, [("1s", 2), ("2s", 1)], [("1s", 14062635), ("2s", 2996088)]),
    (9, [("1s", 2)], [("1s", 14637955)]),
    (10, [("1s", 1)], [("1s", 16487022)])])

/-- absorption_edges_ionized_ions_data.py 7-5726 `ENERGY_DATA`, the entry of Mg. -/
def fac12 : FacRow := (12, "Mg", [
    (0, [("1s", 2), ("2s", 2), ("2p", 6), ("3s", 2)], [("1s", 13108341), ("2p", 563637), ("2s",
    979073), ("3s", 67933)]),
    (1, [("1s", 2), ("2s", 2), ("2p", 6), ("3s", 1)], [("1s", 13208644), ("2p", 660672), ("2s",
    1071856), ("3s", 147454)]),
    (2, [("1s", 2), ("2s", 2), ("2p", 6)], [("1s", 13337357), ("2p", 783652), ("2s", 1194344)]),
    (3, [("1s", 2), ("2s", 2), ("2p", 5)], [("1s", 13722775), ("2p", 1075479), ("2s", 1438294)]),
    (4, [("1s", 2), ("2s", 2), ("2p", 4)], [("1s", 14150227), ("2p", 1394869), ("2s", 1702623)]),
    (5, [("1s", 2), ("2s", 2), ("2p", 3)], [("1s", 14619147), ("2p", 1863201), ("2s", 1987142)]),
    (6, [("1s", 2), ("2s", 2), ("2p", 2)], [("1s", 15179526), ("2p", 2248928), ("2s", 2381643)]),
    (7, [("1s", 2), ("2s", 2), ("2p", 1)], [("1s", 15783668), ("2p", 2660698), ("2s", 2798369)]),
    (8, [("1s", 2), ("2s", 2)], [("1s", 16430937), ("2s", 3239489)]),
    (9, [("1s", 2), ("2s", 1)], [("1s", 16971779), ("2s", 3672391)]),
    (10, [("1s", 2)], [("1s", 17604901)]),
    (11, [("1s", 1)], [("1s", 19626643)])])

/-- absorption_edges_ionized_ions_data.py 7-5726 `ENERGY_DATA`, the entry of Al. -/
def fac13 : FacRow := (13, "Al", [
    (0, [("1s", 2), ("2s", 2), ("2p", 6), ("3s", 2), ("3p", 1)], [("1s", 15677988), ("2p", 796885),
    ("2s", 1278004), ("3p", 54166), ("3s", 91238)]),
    (1, [("1s", 2), ("2s", 2), ("2p", 6), ("3s", 2)], [("1s", 15784630), ("2p", 905473), ("2s",
    1381059), ("3s", 177338)]),
    (2, [("1s", 2), ("2s", 2), ("2p", 6), ("3s", 1)], [("1s", 15916585), ("2p", 1031845), ("2s",
    1501453), ("3s", 280681)]),
    (3, [("1s", 2), ("2s", 2), ("2p", 6)], [("1s", 16076051), ("2p", 1182539), ("2s", 1651350)]),
    (4, [("1s", 2), ("2s", 2), ("2p", 5)], [("1s", 16526102), ("2p", 1521244), ("2s", 1933101)]),
    (5, [("1s", 2), ("2s", 2), ("2p", 4)], [("1s", 17017481), ("2p", 1887237), ("2s", 2234797)]),
    (6, [("1s", 2), ("2s", 2), ("2p", 3)], [("1s", 17550034), ("2p", 2413994), ("2s", 2556408)]),
    (7, [("1s", 2), ("2s", 2), ("2p", 2)], [("1s", 18177681), ("2p", 2846326), ("2s", 2996123)]),
    (8, [("1s", 2), ("2s", 2), ("2p", 1)], [("1s", 18848785), ("2p", 3304685), ("2s", 3457430)]),
    (9, [("1s", 2), ("2s", 2)], [("1s", 19562936), ("2s", 3943247)]),
    (10, [("1s", 2), ("2s", 1)], [("1s", 20155462), ("2s", 4417482)]),
    (11, [("1s", 2)], [("1s", 20846521)]),
    (12, [("1s", 1)], [("1s", 23041403)])])

/-- absorption_edges_ionized_ions_data.py 7-5726 `ENERGY_DATA`, the entry of Si. -/
def fac14 : FacRow := (14, "Si", [
    (0, [("1s", 2), ("2s", 2), ("2p", 6), ("3s", 2), ("3p", 2)], [("1s", 18479954), ("2p",
    1067843), ("2s", 1607842), ("3p", 74479), ("3s", 115101)]),
    (1, [("1s", 2), ("2s", 2), ("2p", 6), ("3s", 2), ("3p", 1)], [("1s", 18598372), ("2p",
    1176480), ("2s", 1721548), ("3p", 156502), ("3s", 211044)]),
    (2, [("1s", 2), ("2s", 2), ("2p", 6), ("3s", 2)], [("1s", 18740692), ("2p", 1320246), ("2s",
    1856767), ("3s", 322017)]),
    (3, [("1s", 2), ("2s", 2), ("2p", 6), ("3s", 1)], [("1s", 18901926), ("2p", 1473404), ("2s",
    2002150), ("3s", 447007)]),
    (4, [("1s", 2), ("2s", 2), ("2p", 6)], [("1s", 19091056), ("2p", 1650528), ("2s", 2178052)]),
    (5, [("1s", 2), ("2s", 2), ("2p", 5)], [("1s", 19604991), ("2p", 2035778), ("2s", 2497137)]),
    (6, [("1s", 2), ("2s", 2), ("2p", 4)], [("1s", 20159958), ("2p", 2448485), ("2s", 2836082)]),
    (7, [("1s", 2), ("2s", 2), ("2p", 3)], [("1s", 20755979), ("2p", 3032836), ("2s", 3194735)]),
    (8, [("1s", 2), ("2s", 2), ("2p", 2)], [("1s", 21450813), ("2p", 3512172), ("2s", 3679617)]),
    (9, [("1s", 2), ("2s", 2), ("2p", 1)], [("1s", 22188815), ("2p", 4017509), ("2s", 4185372)]),
    (10, [("1s", 2), ("2s", 2)], [("1s", 22969851), ("2s", 4715918)]),
    (11, [("1s", 2), ("2s", 1)], [("1s", 23614115), ("2s", 5231553)]),
    (12, [("1s", 2)], [("1s", 24363207)]),
    (13, [("1s", 1)], [("1s", 26731784)])])

/-- absorption_edges_ionized_ions_data.py 7-5726 `ENERGY_DATA`, the entry of P. -/
def fac15 : FacRow := (15, "P", [
    (0, [("1s", 2), ("2s", 2), ("2p", 6), ("3s", 2), ("3p", 3)], [("1s", 21514153), ("2p",
    1368679), ("2s", 1967977), ("3p", 96995), ("3s", 138587)]),
    (1, [("1s", 2), ("2s", 2), ("2p", 6), ("3s", 2), ("3p", 2)], [("1s", 21645748), ("2p",
    1490446), ("2s", 2094332), ("3p", 190194), ("3s", 246315)]),
    (2, [("1s", 2), ("2s", 2), ("2p", 6), ("3s", 2), ("3p", 1)], [("1s", 21798995), ("2p",
    1629559), ("2s", 2239302), ("3p", 294090), ("3s", 366207)]),
    (3, [("1s", 2), ("2s", 2), ("2p", 6), ("3s", 2)], [("1s", 21974798), ("2p", 1805755), ("2s",
    2404064), ("3s", 499821)]),
    (4, [("1s", 2), ("2s", 2), ("2p", 6), ("3s", 1)], [("1s", 22164190), ("2p", 1984467), ("2s",
    2573209), ("3s", 645360)]),
    (5, [("1s", 2), ("2s", 2), ("2p", 6)], [("1s", 22382315), ("2p", 2187269), ("2s", 2774325)]),
    (6, [("1s", 2), ("2s", 2), ("2p", 5)], [("1s", 22959793), ("2p", 2619000), ("2s", 3130575)]),
    (7, [("1s", 2), ("2s", 2), ("2p", 4)], [("1s", 23578130), ("2p", 3078584), ("2s", 3506646)]),
    (8, [("1s", 2), ("2s", 2), ("2p", 3)], [("1s", 24237461), ("2p", 3719606), ("2s", 3902160)]),
    (9, [("1s", 2), ("2s", 2), ("2p", 2)], [("1s", 24999501), ("2p", 4246582), ("2s", 4432337)]),
    (10, [("1s", 2), ("2s", 2), ("2p", 1)], [("1s", 25804284), ("2p", 4799290), ("2s", 4982367)]),
    (11, [("1s", 2), ("2s", 2)], [("1s", 26652250), ("2s", 5557672)]),
    (12, [("1s", 2), ("2s", 1)], [("1s", 27348315), ("2s", 6114755)]),
    (13, [("1s", 2)], [("1s", 28155577)]),
    (14, [("1s", 1)], [("1s", 30698425)])])

/-- absorption_edges_ionized_ions_data.py 7-5726 `ENERGY_DATA`, the entry of S. -/
def fac16 : FacRow := (16, "S", [
    (0, [("1s", 2), ("2s", 2), ("2p", 6), ("3s", 2), ("3p", 4)], [("1s", 24793041), ("2p",
    1699539), ("2s", 2369582), ("3p", 89906), ("3s", 196497)]),
    (1, [("1s", 2), ("2s", 2), ("2p", 6), ("3s", 2), ("3p", 3)], [("1s", 24926063), ("2p",
    1834244), ("2s", 2497994), ("3p", 225748), ("3s", 281326)]),
    (2, [("1s", 2), ("2s", 2), ("2p", 6), ("3s", 2), ("3p", 2)], [("1s", 25091775), ("2p",
    1986132), ("2s", 2654928), ("3p", 340315), ("3s", 412505)]),
    (3, [("1s", 2), ("2s", 2), ("2p", 6), ("3s", 2), ("3p", 1)], [("1s", 25278150), ("2p",
    2153892), ("2s", 2829074), ("3p", 464910), ("3s", 554654)]),
    (4, [("1s", 2), ("2s", 2), ("2p", 6), ("3s", 2)], [("1s", 25486372), ("2p", 2360972), ("2s",
    3022020), ("3s", 709769)]),
    (5, [("1s", 2), ("2s", 2), ("2p", 6), ("3s", 1)], [("1s", 25703281), ("2p", 2564543), ("2s",
    3214216), ("3s", 875278)]),
    (6, [("1s", 2), ("2s", 2), ("2p", 6)], [("1s", 25950040), ("2p", 2792525), ("2s", 3440066)]),
    (7, [("1s", 2), ("2s", 2), ("2p", 5)], [("1s", 26590791), ("2p", 3270878), ("2s", 3833327)]),
    (8, [("1s", 2), ("2s", 2), ("2p", 4)], [("1s", 27272231), ("2p", 3777514), ("2s", 4246415)]),
    (9, [("1s", 2), ("2s", 2), ("2p", 3)], [("1s", 27994898), ("2p", 4474202), ("2s", 4678808)]),
    (10, [("1s", 2), ("2s", 2), ("2p", 2)], [("1s", 28824197), ("2p", 5049637), ("2s", 5254419)]),
    (11, [("1s", 2), ("2s", 2), ("2p", 1)], [("1s", 29695665), ("2p", 5650155), ("2s", 5848540)]),
    (12, [("1s", 2), ("2s", 2)], [("1s", 30610637), ("2s", 6468666)]),
    (13, [("1s", 2), ("2s", 1)], [("1s", 31358574), ("2s", 7067252)]),
    (14, [("1s", 2)], [("1s", 32224156)]),
    (15, [("1s", 1)], [("1s", 34941892)])])

/-- absorption_edges_ionized_ions_data.py 7-5726 `ENERGY_DATA`, the entry of Cl. -/
def fac17 : FacRow := (17, "Cl", [
    (0, [("1s", 2), ("2s", 2), ("2p", 6), ("3s", 2), ("3p", 5)], [("1s", 28306230), ("2p",
    2068669), ("2s", 2802677), ("3p", 116515), ("3s", 260822)]),
    (1, [("1s", 2), ("2s", 2), ("2p", 6), ("3s", 2), ("3p", 4)], [("1s", 28451599), ("2p",
    2205659), ("2s", 2943065), ("3p", 223882), ("3s", 355154)]),
    (2, [("1s", 2), ("2s", 2), ("2p", 6), ("3s", 2), ("3p", 3)], [("1s", 28618213), ("2p",
    2372338), ("2s", 3101821), ("3p", 388211), ("3s", 458629)]),
    (3, [("1s", 2), ("2s", 2), ("2p", 6), ("3s", 2), ("3p", 2)], [("1s", 28816810), ("2p",
    2553009), ("2s", 3287800), ("3p", 523318), ("3s", 611933)]),
    (4, [("1s", 2), ("2s", 2), ("2p", 6), ("3s", 2), ("3p", 1)], [("1s", 29035418), ("2p",
    2748441), ("2s", 3489945), ("3p", 668036), ("3s", 775410)]),
    (5, [("1s", 2), ("2s", 2), ("2p", 6), ("3s", 2)], [("1s", 29275414), ("2p", 2985341), ("2s",
    3710252), ("3s", 951381)]),
    (6, [("1s", 2), ("2s", 2), ("2p", 6), ("3s", 1)], [("1s", 29519462), ("2p", 3213340), ("2s",
    3925049), ("3s", 1136474)]),
    (7, [("1s", 2), ("2s", 2), ("2p", 6)], [("1s", 29794561), ("2p", 3466263), ("2s", 4175313)]),
    (8, [("1s", 2), ("2s", 2), ("2p", 5)], [("1s", 30498332), ("2p", 3991187), ("2s", 4605505)]),
    (9, [("1s", 2), ("2s", 2), ("2p", 4)], [("1s", 31242961), ("2p", 4545375), ("2s", 5055656)]),
    (10, [("1s", 2), ("2s", 2), ("2p", 3)], [("1s", 32028921), ("2p", 5296566), ("2s", 5524878)]),
    (11, [("1s", 2), ("2s", 2), ("2p", 2)], [("1s", 32925567), ("2p", 5921417), ("2s", 6146092)]),
    (12, [("1s", 2), ("2s", 2), ("2p", 1)], [("1s", 33863656), ("2p", 6570316), ("2s", 6784124)]),
    (13, [("1s", 2), ("2s", 2)], [("1s", 34845684), ("2s", 7449100)]),
    (14, [("1s", 2), ("2s", 1)], [("1s", 35645582), ("2s", 8089257)]),
    (15, [("1s", 2)], [("1s", 36569646)]),
    (16, [("1s", 1)], [("1s", 39462933)])])

/-- absorption_edges_ionized_ions_data.py 7-5726 `ENERGY_DATA`, the entry of Ar. -/
def fac18 : FacRow := (18, "Ar", [
    (0, [("1s", 2), ("2s", 2), ("2p", 6), ("3s", 2), ("3p", 6)], [("1s", 32054696), ("2p",
    2478805), ("2s", 3267881), ("3p", 145254), ("3s", 331794)]),
    (1, [("1s", 2), ("2s", 2), ("2p", 6), ("3s", 2), ("3p", 5)], [("1s", 32212306), ("2p",
    2617495), ("2s", 3420200), ("3p", 262968), ("3s", 435382)]),
    (2, [("1s", 2), ("2s", 2), ("2p", 6), ("3s", 2), ("3p", 4)], [("1s", 32390939), ("2p",
    2784507), ("2s", 3590703), ("3p", 392154), ("3s", 548094)]),
    (3, [("1s", 2), ("2s", 2), ("2p", 6), ("3s", 2), ("3p", 3)], [("1s", 32589849), ("2p",
    2981415), ("2s", 3778139), ("3p", 583232), ("3s", 669176)]),
    (4, [("1s", 2), ("2s", 2), ("2p", 6), ("3s", 2), ("3p", 2)], [("1s", 32820556), ("2p",
    3190119), ("2s", 3992091), ("3p", 738430), ("3s", 843836)]),
    (5, [("1s", 2), ("2s", 2), ("2p", 6), ("3s", 2), ("3p", 1)], [("1s", 33070818), ("2p",
    3412601), ("2s", 4221471), ("3p", 902950), ("3s", 1028013)]),
    (6, [("1s", 2), ("2s", 2), ("2p", 6), ("3s", 2)], [("1s", 33342179), ("2p", 3678554), ("2s",
    4468595), ("3s", 1224390)]),
    (7, [("1s", 2), ("2s", 2), ("2p", 6), ("3s", 1)], [("1s", 33613109), ("2p", 3930688), ("2s",
    4705664), ("3s", 1428811)]),
    (8, [("1s", 2), ("2s", 2), ("2p", 6)], [("1s", 33916481), ("2p", 4208313), ("2s", 4980092)]),
    (9, [("1s", 2), ("2s", 2), ("2p", 5)], [("1s", 34683125), ("2p", 4780034), ("2s", 5447203)]),
    (10, [("1s", 2), ("2s", 2), ("2p", 4)], [("1s", 35490753), ("2p", 5382181), ("2s", 5934458)]),
    (11, [("1s", 2), ("2s", 2), ("2p", 3)], [("1s", 36340099), ("2p", 6186600), ("2s", 6440535)]),
    (12, [("1s", 2), ("2s", 2), ("2p", 2)], [("1s", 37304238), ("2p", 6862090), ("2s", 7107582)]),
    (13, [("1s", 2), ("2s", 2), ("2p", 1)], [("1s", 38308859), ("2p", 7559933), ("2s", 7789284)]),
    (14, [("1s", 2), ("2s", 2)], [("1s", 39358031), ("2s", 8499171)]),
    (15, [("1s", 2), ("2s", 1)], [("1s", 40209985), ("2s", 9180975)]),
    (16, [("1s", 2)], [("1s", 41192704)]),
    (17, [("1s", 1)], [("1s", 44262250)])])

/-- absorption_edges_ionized_ions_data.py 7-5726 `ENERGY_DATA`, the entry of K. -/
def fac19 : FacRow := (19, "K", [
    (0, [("1s", 2), ("2s", 2), ("2p", 6), ("3s", 2), ("3p", 6), ("4s", 1)], [("1s", 36137255),
    ("2p", 3001476), ("2s", 3858966), ("3p", 235393), ("3s", 453469), ("4s", 41698)]),
    (1, [("1s", 2), ("2s", 2), ("2p", 6), ("3s", 2), ("3p", 6)], [("1s", 36209008), ("2p",
    3072331), ("2s", 3929851), ("3p", 304120), ("3s", 522282)]),
    (2, [("1s", 2), ("2s", 2), ("2p", 6), ("3s", 2), ("3p", 5)], [("1s", 36399656), ("2p",
    3239003), ("2s", 4112052), ("3p", 443466), ("3s", 644079)]),
    (3, [("1s", 2), ("2s", 2), ("2p", 6), ("3s", 2), ("3p", 4)], [("1s", 36610359), ("2p",
    3434547), ("2s", 4311041), ("3p", 593577), ("3s", 774185)]),
    (4, [("1s", 2), ("2s", 2), ("2p", 6), ("3s", 2), ("3p", 3)], [("1s", 36840630), ("2p",
    3660491), ("2s", 4526040), ("3p", 810030), ("3s", 912080)]),
    (5, [("1s", 2), ("2s", 2), ("2p", 6), ("3s", 2), ("3p", 2)], [("1s", 37102981), ("2p",
    3896915), ("2s", 4767380), ("3p", 985185), ("3s", 1107659)]),
    (6, [("1s", 2), ("2s", 2), ("2p", 6), ("3s", 2), ("3p", 1)], [("1s", 37384528), ("2p",
    4145990), ("2s", 5023411), ("3p", 1169343), ("3s", 1312095)]),
    (7, [("1s", 2), ("2s", 2), ("2p", 6), ("3s", 2)], [("1s", 37687011), ("2p", 4440397), ("2s",
    5296991), ("3s", 1528632)]),
    (8, [("1s", 2), ("2s", 2), ("2p", 6), ("3s", 1)], [("1s", 37984617), ("2p", 4716451), ("2s",
    5556156), ("3s", 1752157)]),
    (9, [("1s", 2), ("2s", 2), ("2p", 6)], [("1s", 38316251), ("2p", 5018745), ("2s", 5854617)]),
    (10, [("1s", 2), ("2s", 2), ("2p", 5)], [("1s", 39145485), ("2p", 5637239), ("2s", 6358526)]),
    (11, [("1s", 2), ("2s", 2), ("2p", 4)], [("1s", 40016255), ("2p", 6288074), ("2s", 6883107)]),
    (12, [("1s", 2), ("2s", 2), ("2p", 3)], [("1s", 40928989), ("2p", 7144236), ("2s", 7425976)]),
    (13, [("1s", 2), ("2s", 2), ("2p", 2)], [("1s", 41960808), ("2p", 7871810), ("2s", 8139115)]),
    (14, [("1s", 2), ("2s", 2), ("2p", 1)], [("1s", 43031875), ("2p", 8619199), ("2s", 8864209)]),
    (15, [("1s", 2), ("2s", 2)], [("1s", 44148293), ("2s", 9619081)]),
    (16, [("1s", 2), ("2s", 1)], [("1s", 45052401), ("2s", 10342606)]),
    (17, [("1s", 2)], [("1s", 46093963)]),
    (18, [("1s", 1)], [("1s", 49340512)])])

/-- absorption_edges_ionized_ions_data.py 7-5726 `ENERGY_DATA`, the entry of Ca. -/
def fac20 : FacRow := (20, "Ca", [
    (0, [("1s", 2), ("2s", 2), ("2p", 6), ("3s", 2), ("3p", 6), ("4s", 2)], [("1s", 40473947),
    ("2p", 3569131), ("2s", 4498219), ("3p", 335456), ("3s", 587074), ("4s", 51303)]),
    (1, [("1s", 2), ("2s", 2), ("2p", 6), ("3s", 2), ("3p", 6), ("4s", 1)], [("1s", 40551678),
    ("2p", 3646338), ("2s", 4574323), ("3p", 408790), ("3s", 658344), ("4s", 114666)]),
    (2, [("1s", 2), ("2s", 2), ("2p", 6), ("3s", 2), ("3p", 6)], [("1s", 40645278), ("2p",
    3738333), ("2s", 4666252), ("3p", 496819), ("3s", 746700)]),
    (3, [("1s", 2), ("2s", 2), ("2p", 6), ("3s", 2), ("3p", 5)], [("1s", 40867758), ("2p",
    3931620), ("2s", 4876820), ("3p", 656836), ("3s", 885714)]),
    (4, [("1s", 2), ("2s", 2), ("2p", 6), ("3s", 2), ("3p", 4)], [("1s", 41109715), ("2p",
    4154854), ("2s", 5103344), ("3p", 827298), ("3s", 1032714)]),
    (5, [("1s", 2), ("2s", 2), ("2p", 6), ("3s", 2), ("3p", 3)], [("1s", 41370858), ("2p",
    4409067), ("2s", 5345178), ("3p", 1068197), ("3s", 1187025)]),
    (6, [("1s", 2), ("2s", 2), ("2p", 6), ("3s", 2), ("3p", 2)], [("1s", 41664547), ("2p",
    4673043), ("2s", 5613452), ("3p", 1263323), ("3s", 1403201)]),
    (7, [("1s", 2), ("2s", 2), ("2p", 6), ("3s", 2), ("3p", 1)], [("1s", 41977082), ("2p",
    4948386), ("2s", 5895739), ("3p", 1467053), ("3s", 1627520)]),
    (8, [("1s", 2), ("2s", 2), ("2p", 6), ("3s", 2)], [("1s", 42310502), ("2p", 5270733), ("2s",
    6195510), ("3s", 1864031)]),
    (9, [("1s", 2), ("2s", 2), ("2p", 6), ("3s", 1)], [("1s", 42634707), ("2p", 5570585), ("2s",
    6476625), ("3s", 2106575)]),
    (10, [("1s", 2), ("2s", 2), ("2p", 6)], [("1s", 42994402), ("2p", 5897362), ("2s", 6799037)]),
    (11, [("1s", 2), ("2s", 2), ("2p", 5)], [("1s", 43886289), ("2p", 6562895), ("2s", 7339795)]),
    (12, [("1s", 2), ("2s", 2), ("2p", 4)], [("1s", 44820251), ("2p", 7263137), ("2s", 7901738)]),
    (13, [("1s", 2), ("2s", 2), ("2p", 3)], [("1s", 45796428), ("2p", 8169338), ("2s", 8481447)]),
    (14, [("1s", 2), ("2s", 2), ("2p", 2)], [("1s", 46896173), ("2p", 8950840), ("2s", 9241043)]),
    (15, [("1s", 2), ("2s", 2), ("2p", 1)], [("1s", 48033546), ("2p", 9748339), ("2s", 10009146)]),
    (16, [("1s", 2), ("2s", 2)], [("1s", 49217319), ("2s", 10809081)]),
    (17, [("1s", 2), ("2s", 1)], [("1s", 50173696), ("2s", 11574416)]),
    (18, [("1s", 2)], [("1s", 51274302)]),
    (19, [("1s", 1)], [("1s", 54698650)])])

/-- absorption_edges_ionized_ions_data.py 7-5726 `ENERGY_DATA`, the entry of Sc. -/
def fac21 : FacRow := (21, "Sc", [
    (0, [("1s", 2), ("2s", 2), ("2p", 6), ("3s", 2), ("3p", 6), ("3d", 1), ("4s", 2)], [("1s",
    44995984), ("2p", 4088844), ("2s", 5099349), ("3d", 70685), ("3p", 362232), ("3s", 658621),
    ("4s", 53253)]),
    (1, [("1s", 2), ("2s", 2), ("2p", 6), ("3s", 2), ("3p", 6), ("3d", 1), ("4s", 1)], [("1s",
    45076921), ("2p", 4169795), ("2s", 5178447), ("3d", 148839), ("3p", 439159), ("3s", 733198),
    ("4s", 123040)]),
    (2, [("1s", 2), ("2s", 2), ("2p", 6), ("3s", 2), ("3p", 6), ("3d", 1)], [("1s", 45173386),
    ("2p", 4263606), ("2s", 5272868), ("3d", 236005), ("3p", 530093), ("3s", 824735)]),
    (3, [("1s", 2), ("2s", 2), ("2p", 6), ("3s", 2), ("3p", 6)], [("1s", 45363019), ("2p",
    4475453), ("2s", 5475856), ("3p", 722216), ("3s", 1004098)]),
    (4, [("1s", 2), ("2s", 2), ("2p", 6), ("3s", 2), ("3p", 5)], [("1s", 45616636), ("2p",
    4694617), ("2s", 5713890), ("3p", 902452), ("3s", 1159861)]),
    (5, [("1s", 2), ("2s", 2), ("2p", 6), ("3s", 2), ("3p", 4)], [("1s", 45889259), ("2p",
    4944858), ("2s", 5967206), ("3p", 1092889), ("3s", 1323258)]),
    (6, [("1s", 2), ("2s", 2), ("2p", 6), ("3s", 2), ("3p", 3)], [("1s", 46180924), ("2p",
    5226801), ("2s", 6235404), ("3p", 1357455), ("3s", 1493770)]),
    (7, [("1s", 2), ("2s", 2), ("2p", 6), ("3s", 2), ("3p", 2)], [("1s", 46505739), ("2p",
    5518276), ("2s", 6530253), ("3p", 1572650), ("3s", 1730270)]),
    (8, [("1s", 2), ("2s", 2), ("2p", 6), ("3s", 2), ("3p", 1)], [("1s", 46849055), ("2p",
    5819616), ("2s", 6838493), ("3p", 1795987), ("3s", 1974231)]),
    (9, [("1s", 2), ("2s", 2), ("2p", 6), ("3s", 2)], [("1s", 47213282), ("2p", 6169458), ("2s",
    7164257), ("3s", 2230527)]),
    (10, [("1s", 2), ("2s", 2), ("2p", 6), ("3s", 1)], [("1s", 47564049), ("2p", 6493037), ("2s",
    7467236), ("3s", 2492015)]),
    (11, [("1s", 2), ("2s", 2), ("2p", 6)], [("1s", 47951802), ("2p", 6844302), ("2s", 7813507)]),
    (12, [("1s", 2), ("2s", 2), ("2p", 5)], [("1s", 48906261), ("2p", 7556944), ("2s", 8391048)]),
    (13, [("1s", 2), ("2s", 2), ("2p", 4)], [("1s", 49903422), ("2p", 8307380), ("2s", 8990595)]),
    (14, [("1s", 2), ("2s", 2), ("2p", 3)], [("1s", 50943246), ("2p", 9261897), ("2s", 9607308)]),
    (15, [("1s", 2), ("2s", 2), ("2p", 2)], [("1s", 52111160), ("2p", 10099400), ("2s", 10413662)]),
    (16, [("1s", 2), ("2s", 2), ("2p", 1)], [("1s", 53314702), ("2p", 10947587), ("2s", 11224343)]),
    (17, [("1s", 2), ("2s", 2)], [("1s", 54565957), ("2s", 12069431)]),
    (18, [("1s", 2), ("2s", 1)], [("1s", 55574725), ("2s", 12876674)]),
    (19, [("1s", 2)], [("1s", 56734583)]),
    (20, [("1s", 1)], [("1s", 60337578)])])

/-- absorption_edges_ionized_ions_data.py 7-5726 `ENERGY_DATA`, the entry of Ti. -/
def fac22 : FacRow := (22, "Ti", [
    (0, [("1s", 2), ("2s", 2), ("2p", 6), ("3s", 2), ("3p", 6), ("3d", 2), ("4s", 2)], [("1s",
    49755301), ("2p", 4647042), ("2s", 5728092), ("3d", 90039), ("3p", 401984), ("3s", 727653),
    ("4s", 54984)]),
    (1, [("1s", 2), ("2s", 2), ("2p", 6), ("3s", 2), ("3p", 6), ("3d", 2), ("4s", 1)], [("1s",
    49839186), ("2p", 4730207), ("2s", 5810046), ("3d", 171640), ("3p", 481836), ("3s", 805255),
    ("4s", 130554)]),
    (2, [("1s", 2), ("2s", 2), ("2p", 6), ("3s", 2), ("3p", 6), ("3d", 2)], [("1s", 49938887),
    ("2p", 4827680), ("2s", 5907390), ("3d", 262764), ("3p", 576772), ("3s", 900407)]),
    (3, [("1s", 2), ("2s", 2), ("2p", 6), ("3s", 2), ("3p", 6), ("3d", 1)], [("1s", 50136357),
    ("2p", 5031238), ("2s", 6117738), ("3d", 420997), ("3p", 757377), ("3s", 1087270)]),
    (4, [("1s", 2), ("2s", 2), ("2p", 6), ("3s", 2), ("3p", 6)], [("1s", 50362218), ("2p",
    5282828), ("2s", 6357951), ("3p", 979751), ("3s", 1293898)]),
    (5, [("1s", 2), ("2s", 2), ("2p", 6), ("3s", 2), ("3p", 5)], [("1s", 50646414), ("2p",
    5527288), ("2s", 6622757), ("3p", 1179760), ("3s", 1466001)]),
    (6, [("1s", 2), ("2s", 2), ("2p", 6), ("3s", 2), ("3p", 4)], [("1s", 50949394), ("2p",
    5804155), ("2s", 6902388), ("3p", 1390076), ("3s", 1645590)]),
    (7, [("1s", 2), ("2s", 2), ("2p", 6), ("3s", 2), ("3p", 3)], [("1s", 51271319), ("2p",
    6113384), ("2s", 7196576), ("3p", 1677555), ("3s", 1832010)]),
    (8, [("1s", 2), ("2s", 2), ("2p", 6), ("3s", 2), ("3p", 2)], [("1s", 51627124), ("2p",
    6432469), ("2s", 7517814), ("3p", 1913057), ("3s", 2088776)]),
    (9, [("1s", 2), ("2s", 2), ("2p", 6), ("3s", 2), ("3p", 1)], [("1s", 52001092), ("2p",
    6759560), ("2s", 7851764), ("3p", 2156090), ("3s", 2352172)]),
    (10, [("1s", 2), ("2s", 2), ("2p", 6), ("3s", 2)], [("1s", 52396047), ("2p", 7136549), ("2s",
    8203401), ("3s", 2628177)]),
    (11, [("1s", 2), ("2s", 2), ("2p", 6), ("3s", 1)], [("1s", 52773250), ("2p", 7483752), ("2s",
    8528122), ("3s", 2908485)]),
    (12, [("1s", 2), ("2s", 2), ("2p", 6)], [("1s", 53189198), ("2p", 7859440), ("2s", 8898243)]),
    (13, [("1s", 2), ("2s", 2), ("2p", 5)], [("1s", 54206077), ("2p", 8619373), ("2s", 9512617)]),
    (14, [("1s", 2), ("2s", 2), ("2p", 4)], [("1s", 55266608), ("2p", 9420962), ("2s", 10150000)]),
    (15, [("1s", 2), ("2s", 2), ("2p", 3)], [("1s", 56370179), ("2p", 10421842), ("2s", 10803742)]),
    (16, [("1s", 2), ("2s", 2), ("2p", 2)], [("1s", 57606525), ("2p", 11317755), ("2s", 11657275)]),
    (17, [("1s", 2), ("2s", 2), ("2p", 1)], [("1s", 58876099), ("2p", 12217187), ("2s", 12510040)]),
    (18, [("1s", 2), ("2s", 2)], [("1s", 60194967), ("2s", 13400376)]),
    (19, [("1s", 2), ("2s", 1)], [("1s", 61256254), ("2s", 14249625)]),
    (20, [("1s", 2)], [("1s", 62475593)]),
    (21, [("1s", 1)], [("1s", 66258117)])])

/-- absorption_edges_ionized_ions_data.py 7-5726 `ENERGY_DATA`, the entry of V. -/
def fac23 : FacRow := (23, "V", [
    (0, [("1s", 2), ("2s", 2), ("2p", 6), ("3s", 2), ("3p", 6), ("3d", 3), ("4s", 2)], [("1s",
    54756629), ("2p", 5234841), ("2s", 6389164), ("3d", 99250), ("3p", 443906), ("3s", 797570),
    ("4s", 56547)]),
    (1, [("1s", 2), ("2s", 2), ("2p", 6), ("3s", 2), ("3p", 6), ("3d", 3), ("4s", 1)], [("1s",
    54843305), ("2p", 5320975), ("2s", 6473871), ("3d", 184023), ("3p", 526817), ("3s", 878071),
    ("4s", 137797)]),
    (2, [("1s", 2), ("2s", 2), ("2p", 6), ("3s", 2), ("3p", 6), ("3d", 3)], [("1s", 54946260),
    ("2p", 5421327), ("2s", 6574167), ("3d", 278817), ("3p", 625464), ("3s", 976737)]),
    (3, [("1s", 2), ("2s", 2), ("2p", 6), ("3s", 2), ("3p", 6), ("3d", 2)], [("1s", 55149513),
    ("2p", 5631194), ("2s", 6789669), ("3d", 455748), ("3p", 810812), ("3s", 1169821)]),
    (4, [("1s", 2), ("2s", 2), ("2p", 6), ("3s", 2), ("3p", 6), ("3d", 1)], [("1s", 55383133),
    ("2p", 5871128), ("2s", 7037232), ("3d", 641257), ("3p", 1018731), ("3s", 1384227)]),
    (5, [("1s", 2), ("2s", 2), ("2p", 6), ("3s", 2), ("3p", 6)], [("1s", 55643223), ("2p",
    6159912), ("2s", 7312179), ("3p", 1268921), ("3s", 1615736)]),
    (6, [("1s", 2), ("2s", 2), ("2p", 6), ("3s", 2), ("3p", 5)], [("1s", 55957628), ("2p",
    6429286), ("2s", 7603269), ("3p", 1488494), ("3s", 1803938)]),
    (7, [("1s", 2), ("2s", 2), ("2p", 6), ("3s", 2), ("3p", 4)], [("1s", 56290715), ("2p",
    6732496), ("2s", 7908876), ("3p", 1718688), ("3s", 1999579)]),
    (8, [("1s", 2), ("2s", 2), ("2p", 6), ("3s", 2), ("3p", 3)], [("1s", 56642720), ("2p",
    7068647), ("2s", 8228759), ("3p", 2028325), ("3s", 2201775)]),
    (9, [("1s", 2), ("2s", 2), ("2p", 6), ("3s", 2), ("3p", 2)], [("1s", 57029452), ("2p",
    7415592), ("2s", 8576228), ("3p", 2284531), ("3s", 2478741)]),
    (10, [("1s", 2), ("2s", 2), ("2p", 6), ("3s", 2), ("3p", 1)], [("1s", 57433931), ("2p",
    7768120), ("2s", 8935701), ("3p", 2547347), ("3s", 2761300)]),
    (11, [("1s", 2), ("2s", 2), ("2p", 6), ("3s", 2)], [("1s", 57859551), ("2p", 8171923), ("2s",
    9313104), ("3s", 3056939)]),
    (12, [("1s", 2), ("2s", 2), ("2p", 6), ("3s", 1)], [("1s", 58263210), ("2p", 8542736), ("2s",
    9659590), ("3s", 3356126)]),
    (13, [("1s", 2), ("2s", 2), ("2p", 6)], [("1s", 58707229), ("2p", 8942770), ("2s", 10053434)]),
    (14, [("1s", 2), ("2s", 2), ("2p", 5)], [("1s", 59786622), ("2p", 9750172), ("2s", 10704709)]),
    (15, [("1s", 2), ("2s", 2), ("2p", 4)], [("1s", 60910659), ("2p", 10603890), ("2s", 11380197)]),
    (16, [("1s", 2), ("2s", 2), ("2p", 3)], [("1s", 62078166), ("2p", 11649159), ("2s", 12071152)]),
    (17, [("1s", 2), ("2s", 2), ("2p", 2)], [("1s", 63383193), ("2p", 12606198), ("2s", 12972229)]),
    (18, [("1s", 2), ("2s", 2), ("2p", 1)], [("1s", 64718667), ("2p", 13557404), ("2s", 13866518)]),
    (19, [("1s", 2), ("2s", 2)], [("1s", 66105297), ("2s", 14802205)]),
    (20, [("1s", 2), ("2s", 1)], [("1s", 67219255), ("2s", 15693569)]),
    (21, [("1s", 2)], [("1s", 68498295)]),
    (22, [("1s", 1)], [("1s", 72461283)])])

/-- absorption_edges_ionized_ions_data.py 7-5726 `ENERGY_DATA`, the entry of Cr. -/
def fac24 : FacRow := (24, "Cr", [
    (0, [("1s", 2), ("2s", 2), ("2p", 6), ("3s", 2), ("3p", 6), ("3d", 5), ("4s", 1)], [("1s",
    59932504), ("2p", 5775285), ("2s", 7002611), ("3d", 63854), ("3p", 438882), ("3s", 794777),
    ("4s", 62271)]),
    (1, [("1s", 2), ("2s", 2), ("2p", 6), ("3s", 2), ("3p", 6), ("3d", 5)], [("1s", 60019401),
    ("2p", 5860228), ("2s", 7087384), ("3d", 146302), ("3p", 524276), ("3s", 880026)]),
    (2, [("1s", 2), ("2s", 2), ("2p", 6), ("3s", 2), ("3p", 6), ("3d", 4)], [("1s", 60196661),
    ("2p", 6038382), ("2s", 7273978), ("3d", 294069), ("3p", 674453), ("3s", 1054290)]),
    (3, [("1s", 2), ("2s", 2), ("2p", 6), ("3s", 2), ("3p", 6), ("3d", 3)], [("1s", 60405876),
    ("2p", 6261346), ("2s", 7494811), ("3d", 477769), ("3p", 867597), ("3s", 1253747)]),
    (4, [("1s", 2), ("2s", 2), ("2p", 6), ("3s", 2), ("3p", 6), ("3d", 2)], [("1s", 60645374),
    ("2p", 6507838), ("2s", 7747712), ("3d", 683966), ("3p", 1079803), ("3s", 1474770)]),
    (5, [("1s", 2), ("2s", 2), ("2p", 6), ("3s", 2), ("3p", 6), ("3d", 1)], [("1s", 60913210),
    ("2p", 6781748), ("2s", 8030053), ("3d", 894949), ("3p", 1312737), ("3s", 1714284)]),
    (6, [("1s", 2), ("2s", 2), ("2p", 6), ("3s", 2), ("3p", 6)], [("1s", 61206536), ("2p",
    7106293), ("2s", 8338349), ("3p", 1589457), ("3s", 1969458)]),
    (7, [("1s", 2), ("2s", 2), ("2p", 6), ("3s", 2), ("3p", 5)], [("1s", 61550892), ("2p",
    7400304), ("2s", 8655347), ("3p", 1828421), ("3s", 2173518)]),
    (8, [("1s", 2), ("2s", 2), ("2p", 6), ("3s", 2), ("3p", 4)], [("1s", 61913903), ("2p",
    7729691), ("2s", 8986697), ("3p", 2078597), ("3s", 2385145)]),
    (9, [("1s", 2), ("2s", 2), ("2p", 6), ("3s", 2), ("3p", 3)], [("1s", 62295867), ("2p",
    8092464), ("2s", 9332044), ("3p", 2409654), ("3s", 2603006)]),
    (10, [("1s", 2), ("2s", 2), ("2p", 6), ("3s", 2), ("3p", 2)], [("1s", 62713455), ("2p",
    8467586), ("2s", 9705686), ("3p", 2687023), ("3s", 2900134)]),
    (11, [("1s", 2), ("2s", 2), ("2p", 6), ("3s", 2), ("3p", 1)], [("1s", 63148382), ("2p",
    8845235), ("2s", 10090496), ("3p", 2969777), ("3s", 3201676)]),
    (12, [("1s", 2), ("2s", 2), ("2p", 6), ("3s", 2)], [("1s", 63604660), ("2p", 9275602), ("2s",
    10493609), ("3s", 3516927)]),
    (13, [("1s", 2), ("2s", 2), ("2p", 6), ("3s", 1)], [("1s", 64034753), ("2p", 9669952), ("2s",
    10861758), ("3s", 3834857)]),
    (14, [("1s", 2), ("2s", 2), ("2p", 6)], [("1s", 64506898), ("2p", 10094386), ("2s", 11279459)]),
    (15, [("1s", 2), ("2s", 2), ("2p", 5)], [("1s", 65648749), ("2p", 10949324), ("2s", 11967573)]),
    (16, [("1s", 2), ("2s", 2), ("2p", 4)], [("1s", 66836451), ("2p", 11856173), ("2s", 12681473)]),
    (17, [("1s", 2), ("2s", 2), ("2p", 3)], [("1s", 68068132), ("2p", 12943865), ("2s", 13409928)]),
    (18, [("1s", 2), ("2s", 2), ("2p", 2)], [("1s", 69442052), ("2p", 13965051), ("2s", 14358863)]),
    (19, [("1s", 2), ("2s", 2), ("2p", 1)], [("1s", 70843313), ("2p", 14968518), ("2s", 15294058)]),
    (20, [("1s", 2), ("2s", 2)], [("1s", 72297863), ("2s", 16275211)]),
    (21, [("1s", 2), ("2s", 1)], [("1s", 73464619), ("2s", 17208799)]),
    (22, [("1s", 2)], [("1s", 74803626)]),
    (23, [("1s", 1)], [("1s", 78948056)])])

/-- absorption_edges_ionized_ions_data.py 7-5726 `ENERGY_DATA`, the entry of Mn. -/
def fac25 : FacRow := (25, "Mn", [
    (0, [("1s", 2), ("2s", 2), ("2p", 6), ("3s", 2), ("3p", 6), ("3d", 5), ("4s", 2)], [("1s",
    65487346), ("2p", 6496690), ("2s", 7808339), ("3d", 127072), ("3p", 548002), ("3s", 939847),
    ("4s", 58955)]),
    (1, [("1s", 2), ("2s", 2), ("2p", 6), ("3s", 2), ("3p", 6), ("3d", 5), ("4s", 1)], [("1s",
    65579619), ("2p", 6588220), ("2s", 7898581), ("3d", 218041), ("3p", 636684), ("3s", 1025985),
    ("4s", 151312)]),
    (2, [("1s", 2), ("2s", 2), ("2p", 6), ("3s", 2), ("3p", 6), ("3d", 5)], [("1s", 65689143),
    ("2p", 6694872), ("2s", 8004999), ("3d", 320206), ("3p", 742374), ("3s", 1131722)]),
    (3, [("1s", 2), ("2s", 2), ("2p", 6), ("3s", 2), ("3p", 6), ("3d", 4)], [("1s", 65906500),
    ("2p", 6914010), ("2s", 8233727), ("3d", 499086), ("3p", 923187), ("3s", 1339274)]),
    (4, [("1s", 2), ("2s", 2), ("2p", 6), ("3s", 2), ("3p", 6), ("3d", 3)], [("1s", 66152066),
    ("2p", 7175018), ("2s", 8492043), ("3d", 712081), ("3p", 1145244), ("3s", 1566935)]),
    (5, [("1s", 2), ("2s", 2), ("2p", 6), ("3s", 2), ("3p", 6), ("3d", 2)], [("1s", 66425862),
    ("2p", 7455753), ("2s", 8779897), ("3d", 945621), ("3p", 1381931), ("3s", 1813425)]),
    (6, [("1s", 2), ("2s", 2), ("2p", 6), ("3s", 2), ("3p", 6), ("3d", 1)], [("1s", 66726920),
    ("2p", 7762323), ("2s", 9095679), ("3d", 1181161), ("3p", 1638678), ("3s", 2076805)]),
    (7, [("1s", 2), ("2s", 2), ("2p", 6), ("3s", 2), ("3p", 6)], [("1s", 67052859), ("2p",
    8121764), ("2s", 9436423), ("3p", 1941141), ("3s", 2354890)]),
    (8, [("1s", 2), ("2s", 2), ("2p", 6), ("3s", 2), ("3p", 5)], [("1s", 67426980), ("2p",
    8440188), ("2s", 9779089), ("3p", 2199424), ("3s", 2574704)]),
    (9, [("1s", 2), ("2s", 2), ("2p", 6), ("3s", 2), ("3p", 4)], [("1s", 67819788), ("2p",
    8795589), ("2s", 10135948), ("3p", 2469703), ("3s", 2802249)]),
    (10, [("1s", 2), ("2s", 2), ("2p", 6), ("3s", 2), ("3p", 3)], [("1s", 68231633), ("2p",
    9184782), ("2s", 10506649), ("3p", 2821428), ("3s", 3035678)]),
    (11, [("1s", 2), ("2s", 2), ("2p", 6), ("3s", 2), ("3p", 2)], [("1s", 68680114), ("2p",
    9587050), ("2s", 10906381), ("3p", 3120614), ("3s", 3353077)]),
    (12, [("1s", 2), ("2s", 2), ("2p", 6), ("3s", 2), ("3p", 1)], [("1s", 69145350), ("2p",
    9990841), ("2s", 11316367), ("3p", 3423409), ("3s", 3673332)]),
    (13, [("1s", 2), ("2s", 2), ("2p", 6), ("3s", 2)], [("1s", 69632259), ("2p", 10447525), ("2s",
    11745135), ("3s", 4008113)]),
    (14, [("1s", 2), ("2s", 2), ("2p", 6), ("3s", 1)], [("1s", 70088814), ("2p", 10865467), ("2s",
    12134979), ("3s", 4344849)]),
    (15, [("1s", 2), ("2s", 2), ("2p", 6)], [("1s", 70589143), ("2p", 11314267), ("2s", 12576468)]),
    (16, [("1s", 2), ("2s", 2), ("2p", 5)], [("1s", 71793513), ("2p", 12216836), ("2s", 13301505)]),
    (17, [("1s", 2), ("2s", 2), ("2p", 4)], [("1s", 73044986), ("2p", 13177773), ("2s", 14054140)]),
    (18, [("1s", 2), ("2s", 2), ("2p", 3)], [("1s", 74341164), ("2p", 14306035), ("2s", 14820518)]),
    (19, [("1s", 2), ("2s", 2), ("2p", 2)], [("1s", 75784117), ("2p", 15394655), ("2s", 15817542)]),
    (20, [("1s", 2), ("2s", 2), ("2p", 1)], [("1s", 77251092), ("2p", 16450832), ("2s", 16792980)]),
    (21, [("1s", 2), ("2s", 2)], [("1s", 78773732), ("2s", 17819719)]),
    (22, [("1s", 2), ("2s", 1)], [("1s", 79993439), ("2s", 18795653)]),
    (23, [("1s", 2)], [("1s", 81392674)]),
    (24, [("1s", 1)], [("1s", 85719573)])])

/-- absorption_edges_ionized_ions_data.py 7-5726 `ENERGY_DATA`, the entry of Fe. -/
def fac26 : FacRow := (26, "Fe", [
    (0, [("1s", 2), ("2s", 2), ("2p", 6), ("3s", 2), ("3p", 6), ("3d", 6), ("4s", 2)], [("1s",
    71228751), ("2p", 7182473), ("2s", 8588593), ("3d", 81810), ("3p", 607110), ("3s", 1043907),
    ("4s", 62993)]),
    (1, [("1s", 2), ("2s", 2), ("2p", 6), ("3s", 2), ("3p", 6), ("3d", 6), ("4s", 1)], [("1s",
    71323731), ("2p", 7276521), ("2s", 8681326), ("3d", 172644), ("3p", 698744), ("3s", 1132949),
    ("4s", 155204)]),
    (2, [("1s", 2), ("2s", 2), ("2p", 6), ("3s", 2), ("3p", 6), ("3d", 6)], [("1s", 71436401),
    ("2p", 7386275), ("2s", 8790846), ("3d", 280941), ("3p", 807804), ("3s", 1242072)]),
    (3, [("1s", 2), ("2s", 2), ("2p", 6), ("3s", 2), ("3p", 6), ("3d", 5)], [("1s", 71650546),
    ("2p", 7608148), ("2s", 9004634), ("3d", 533343), ("3p", 1000534), ("3s", 1425153)]),
    (4, [("1s", 2), ("2s", 2), ("2p", 6), ("3s", 2), ("3p", 6), ("3d", 4)], [("1s", 71904129),
    ("2p", 7863755), ("2s", 9270731), ("3d", 739552), ("3p", 1207704), ("3s", 1660992)]),
    (5, [("1s", 2), ("2s", 2), ("2p", 6), ("3s", 2), ("3p", 6), ("3d", 3)], [("1s", 72184121),
    ("2p", 8160417), ("2s", 9564124), ("3d", 979953), ("3p", 1456570), ("3s", 1914407)]),
    (6, [("1s", 2), ("2s", 2), ("2p", 6), ("3s", 2), ("3p", 6), ("3d", 2)], [("1s", 72491192),
    ("2p", 8474052), ("2s", 9885570), ("3d", 1239837), ("3p", 1716387), ("3s", 2185058)]),
    (7, [("1s", 2), ("2s", 2), ("2p", 6), ("3s", 2), ("3p", 6), ("3d", 1)], [("1s", 72824826),
    ("2p", 8812382), ("2s", 10233878), ("3d", 1499350), ("3p", 1996137), ("3s", 2471501)]),
    (8, [("1s", 2), ("2s", 2), ("2p", 6), ("3s", 2), ("3p", 6)], [("1s", 73182987), ("2p",
    9206063), ("2s", 10606448), ("3p", 2323831), ("3s", 2771980)]),
    (9, [("1s", 2), ("2s", 2), ("2p", 6), ("3s", 2), ("3p", 5)], [("1s", 73586723), ("2p",
    9548770), ("2s", 10974575), ("3p", 2601372), ("3s", 3007454)]),
    (10, [("1s", 2), ("2s", 2), ("2p", 6), ("3s", 2), ("3p", 4)], [("1s", 74009225), ("2p",
    9930110), ("2s", 11356811), ("3p", 2891976), ("3s", 3250914)]),
    (11, [("1s", 2), ("2s", 2), ("2p", 6), ("3s", 2), ("3p", 3)], [("1s", 74450912), ("2p",
    10345490), ("2s", 11752724), ("3p", 3263595), ("3s", 3499881)]),
    (12, [("1s", 2), ("2s", 2), ("2p", 6), ("3s", 2), ("3p", 2)], [("1s", 74930255), ("2p",
    10774790), ("2s", 12178533), ("3p", 3585273), ("3s", 3837542)]),
    (13, [("1s", 2), ("2s", 2), ("2p", 6), ("3s", 2), ("3p", 1)], [("1s", 75425811), ("2p",
    11204911), ("2s", 12613578), ("3p", 3908302), ("3s", 4176322)]),
    (14, [("1s", 2), ("2s", 2), ("2p", 6), ("3s", 2)], [("1s", 75943341), ("2p", 11687736), ("2s",
    13067977), ("3s", 4530626)]),
    (15, [("1s", 2), ("2s", 2), ("2p", 6), ("3s", 1)], [("1s", 76426359), ("2p", 12129240), ("2s",
    13479499), ("3s", 4886148)]),
    (16, [("1s", 2), ("2s", 2), ("2p", 6)], [("1s", 76954996), ("2p", 12602468), ("2s", 13944779)]),
    (17, [("1s", 2), ("2s", 2), ("2p", 5)], [("1s", 78221714), ("2p", 13552661), ("2s", 14706744)]),
    (18, [("1s", 2), ("2s", 2), ("2p", 4)], [("1s", 79537240), ("2p", 14568594), ("2s", 15498500)]),
    (19, [("1s", 2), ("2s", 2), ("2p", 3)], [("1s", 80898319), ("2p", 15735805), ("2s", 16303409)]),
    (20, [("1s", 2), ("2s", 2), ("2p", 2)], [("1s", 82410337), ("2p", 16895363), ("2s", 17348605)]),
    (21, [("1s", 2), ("2s", 2), ("2p", 1)], [("1s", 83943015), ("2p", 18004662), ("2s", 18363604)]),
    (22, [("1s", 2), ("2s", 2)], [("1s", 85533912), ("2s", 19436043)]),
    (23, [("1s", 2), ("2s", 1)], [("1s", 86806737), ("2s", 20454451)]),
    (24, [("1s", 2)], [("1s", 88266478)]),
    (25, [("1s", 1)], [("1s", 92776919)])])

/-- absorption_edges_ionized_ions_data.py 7-5726 `ENERGY_DATA`, the entry of Co. -/
def fac27 : FacRow := (27, "Co", [
    (0, [("1s", 2), ("2s", 2), ("2p", 6), ("3s", 2), ("3p", 6), ("3d", 7), ("4s", 2)], [("1s",
    77214184), ("2p", 7901477), ("2s", 9402081), ("3d", 104161), ("3p", 671618), ("3s", 1150470),
    ("4s", 66754)]),
    (1, [("1s", 2), ("2s", 2), ("2p", 6), ("3s", 2), ("3p", 6), ("3d", 7), ("4s", 1)], [("1s",
    77311942), ("2p", 7998171), ("2s", 9497447), ("3d", 198102), ("3p", 766355), ("3s", 1242463),
    ("4s", 158831)]),
    (2, [("1s", 2), ("2s", 2), ("2p", 6), ("3s", 2), ("3p", 6), ("3d", 7)], [("1s", 77427785),
    ("2p", 8111063), ("2s", 9610114), ("3d", 309795), ("3p", 878659), ("3s", 1354949)]),
    (3, [("1s", 2), ("2s", 2), ("2p", 6), ("3s", 2), ("3p", 6), ("3d", 6)], [("1s", 77649704),
    ("2p", 8335773), ("2s", 9831766), ("3d", 491443), ("3p", 1073680), ("3s", 1545590)]),
    (4, [("1s", 2), ("2s", 2), ("2p", 6), ("3s", 2), ("3p", 6), ("3d", 5)], [("1s", 77900940),
    ("2p", 8595611), ("2s", 10082067), ("3d", 781807), ("3p", 1294327), ("3s", 1755702)]),
    (5, [("1s", 2), ("2s", 2), ("2p", 6), ("3s", 2), ("3p", 6), ("3d", 4)], [("1s", 78188869),
    ("2p", 8885599), ("2s", 10383213), ("3d", 1013686), ("3p", 1526179), ("3s", 2017457)]),
    (6, [("1s", 2), ("2s", 2), ("2p", 6), ("3s", 2), ("3p", 6), ("3d", 3)], [("1s", 78502261),
    ("2p", 9216400), ("2s", 10710283), ("3d", 1280439), ("3p", 1800592), ("3s", 2295232)]),
    (7, [("1s", 2), ("2s", 2), ("2p", 6), ("3s", 2), ("3p", 6), ("3d", 2)], [("1s", 78841947),
    ("2p", 9562183), ("2s", 11064443), ("3d", 1566049), ("3p", 2082696), ("3s", 2589210)]),
    (8, [("1s", 2), ("2s", 2), ("2p", 6), ("3s", 2), ("3p", 6), ("3d", 1)], [("1s", 79207762),
    ("2p", 9931635), ("2s", 11444639), ("3d", 1849181), ("3p", 2384870), ("3s", 2898177)]),
    (9, [("1s", 2), ("2s", 2), ("2p", 6), ("3s", 2), ("3p", 6)], [("1s", 79597834), ("2p",
    10359089), ("2s", 11848557), ("3p", 2737418), ("3s", 3220708)]),
    (10, [("1s", 2), ("2s", 2), ("2p", 6), ("3s", 2), ("3p", 5)], [("1s", 80031074), ("2p",
    10725946), ("2s", 12241982), ("3p", 3034173), ("3s", 3471760)]),
    (11, [("1s", 2), ("2s", 2), ("2p", 6), ("3s", 2), ("3p", 4)], [("1s", 80483240), ("2p",
    11133192), ("2s", 12649497), ("3p", 3345362), ("3s", 3731153)]),
    (12, [("1s", 2), ("2s", 2), ("2p", 6), ("3s", 2), ("3p", 3)], [("1s", 80954733), ("2p",
    11574615), ("2s", 13070551), ("3p", 3736102), ("3s", 3995657)]),
    (13, [("1s", 2), ("2s", 2), ("2p", 6), ("3s", 2), ("3p", 2)], [("1s", 81464984), ("2p",
    12030906), ("2s", 13522397), ("3p", 4081129), ("3s", 4353699)]),
    (14, [("1s", 2), ("2s", 2), ("2p", 6), ("3s", 2), ("3p", 1)], [("1s", 81990755), ("2p",
    12487390), ("2s", 13982386), ("3p", 4424505), ("3s", 4710700)]),
    (15, [("1s", 2), ("2s", 2), ("2p", 6), ("3s", 2)], [("1s", 82538959), ("2p", 12996233), ("2s",
    14462413), ("3s", 5084555)]),
    (16, [("1s", 2), ("2s", 2), ("2p", 6), ("3s", 1)], [("1s", 83048434), ("2p", 13461281), ("2s",
    14895629), ("3s", 5458860)]),
    (17, [("1s", 2), ("2s", 2), ("2p", 6)], [("1s", 83605355), ("2p", 13958898), ("2s", 15384685)]),
    (18, [("1s", 2), ("2s", 2), ("2p", 5)], [("1s", 84934598), ("2p", 14956901), ("2s", 16183755)]),
    (19, [("1s", 2), ("2s", 2), ("2p", 4)], [("1s", 86314313), ("2p", 16028496), ("2s", 17014892)]),
    (20, [("1s", 2), ("2s", 2), ("2p", 3)], [("1s", 87740799), ("2p", 17233359), ("2s", 17859131)]),
    (21, [("1s", 2), ("2s", 2), ("2p", 2)], [("1s", 89321802), ("2p", 18467554), ("2s", 18952414)]),
    (22, [("1s", 2), ("2s", 2), ("2p", 1)], [("1s", 90920236), ("2p", 19630337), ("2s", 20006273)]),
    (23, [("1s", 2), ("2s", 2)], [("1s", 92579586), ("2s", 21124555)]),
    (24, [("1s", 2), ("2s", 1)], [("1s", 93905693), ("2s", 22185567)]),
    (25, [("1s", 2)], [("1s", 95426229)]),
    (26, [("1s", 1)], [("1s", 100121335)])])

/-- absorption_edges_ionized_ions_data.py 7-5726 `ENERGY_DATA`, the entry of Ni. -/
def fac28 : FacRow := (28, "Ni", [
    (0, [("1s", 2), ("2s", 2), ("2p", 6), ("3s", 2), ("3p", 6), ("3d", 8), ("4s", 2)], [("1s",
    83447246), ("2p", 8657168), ("2s", 10251841), ("3d", 112020), ("3p", 748829), ("3s", 1261340),
    ("4s", 70288)]),
    (1, [("1s", 2), ("2s", 2), ("2p", 6), ("3s", 2), ("3p", 6), ("3d", 8), ("4s", 1)], [("1s",
    83547914), ("2p", 8756647), ("2s", 10349965), ("3d", 209105), ("3p", 846637), ("3s", 1356421),
    ("4s", 162348)]),
    (2, [("1s", 2), ("2s", 2), ("2p", 6), ("3s", 2), ("3p", 6), ("3d", 8)], [("1s", 83666937),
    ("2p", 8872645), ("2s", 10465740), ("3d", 324078), ("3p", 962274), ("3s", 1472100)]),
    (3, [("1s", 2), ("2s", 2), ("2p", 6), ("3s", 2), ("3p", 6), ("3d", 7)], [("1s", 83894462),
    ("2p", 9097904), ("2s", 10693063), ("3d", 528164), ("3p", 1153113), ("3s", 1668929)]),
    (4, [("1s", 2), ("2s", 2), ("2p", 6), ("3s", 2), ("3p", 6), ("3d", 6)], [("1s", 84153356),
    ("2p", 9359853), ("2s", 10951162), ("3d", 738164), ("3p", 1375582), ("3s", 1886557)]),
    (5, [("1s", 2), ("2s", 2), ("2p", 6), ("3s", 2), ("3p", 6), ("3d", 5)], [("1s", 84439644),
    ("2p", 9655215), ("2s", 11235479), ("3d", 1063845), ("3p", 1621988), ("3s", 2121270)]),
    (6, [("1s", 2), ("2s", 2), ("2p", 6), ("3s", 2), ("3p", 6), ("3d", 4)], [("1s", 84760946),
    ("2p", 9978475), ("2s", 11570356), ("3d", 1320518), ("3p", 1877522), ("3s", 2407641)]),
    (7, [("1s", 2), ("2s", 2), ("2p", 6), ("3s", 2), ("3p", 6), ("3d", 3)], [("1s", 85107033),
    ("2p", 10342503), ("2s", 11930235), ("3d", 1613011), ("3p", 2176875), ("3s", 2708934)]),
    (8, [("1s", 2), ("2s", 2), ("2p", 6), ("3s", 2), ("3p", 6), ("3d", 2)], [("1s", 85478890),
    ("2p", 10719760), ("2s", 12316408), ("3d", 1923888), ("3p", 2480518), ("3s", 3025639)]),
    (9, [("1s", 2), ("2s", 2), ("2p", 6), ("3s", 2), ("3p", 6), ("3d", 1)], [("1s", 85876601),
    ("2p", 11119878), ("2s", 12728028), ("3d", 2230399), ("3p", 2804717), ("3s", 3356763)]),
    (10, [("1s", 2), ("2s", 2), ("2p", 6), ("3s", 2), ("3p", 6)], [("1s", 86298385), ("2p",
    11580737), ("2s", 13162932), ("3p", 3181834), ("3s", 3701095)]),
    (11, [("1s", 2), ("2s", 2), ("2p", 6), ("3s", 2), ("3p", 5)], [("1s", 86761016), ("2p",
    11971654), ("2s", 13581532), ("3p", 3497772), ("3s", 3967644)]),
    (12, [("1s", 2), ("2s", 2), ("2p", 6), ("3s", 2), ("3p", 4)], [("1s", 87242827), ("2p",
    12404772), ("2s", 14014221), ("3p", 3829862), ("3s", 4243065)]),
    (13, [("1s", 2), ("2s", 2), ("2p", 6), ("3s", 2), ("3p", 3)], [("1s", 87744119), ("2p",
    12872055), ("2s", 14460360), ("3p", 4238910), ("3s", 4523117)]),
    (14, [("1s", 2), ("2s", 2), ("2p", 6), ("3s", 2), ("3p", 2)], [("1s", 88285262), ("2p",
    13355361), ("2s", 14938232), ("3p", 4608204), ("3s", 4901575)]),
    (15, [("1s", 2), ("2s", 2), ("2p", 6), ("3s", 2), ("3p", 1)], [("1s", 88841277), ("2p",
    13838285), ("2s", 15423114), ("3p", 4972104), ("3s", 5276585)]),
    (16, [("1s", 2), ("2s", 2), ("2p", 6), ("3s", 2)], [("1s", 89420163), ("2p", 14373019), ("2s",
    15928769), ("3s", 5669950)]),
    (17, [("1s", 2), ("2s", 2), ("2p", 6), ("3s", 1)], [("1s", 89956202), ("2p", 14861648), ("2s",
    16383667), ("3s", 6063044)]),
    (18, [("1s", 2), ("2s", 2), ("2p", 6)], [("1s", 90541455), ("2p", 15383705), ("2s", 16896577)]),
    (19, [("1s", 2), ("2s", 2), ("2p", 5)], [("1s", 91933205), ("2p", 16429522), ("2s", 17732716)]),
    (20, [("1s", 2), ("2s", 2), ("2p", 4)], [("1s", 93377305), ("2p", 17557283), ("2s", 18603632)]),
    (21, [("1s", 2), ("2s", 2), ("2p", 3)], [("1s", 94869763), ("2p", 18798946), ("2s", 19488229)]),
    (22, [("1s", 2), ("2s", 2), ("2p", 2)], [("1s", 96519532), ("2p", 20111612), ("2s", 20629303)]),
    (23, [("1s", 2), ("2s", 2), ("2p", 1)], [("1s", 98183862), ("2p", 21328204), ("2s", 21721336)]),
    (24, [("1s", 2), ("2s", 2)], [("1s", 99911857), ("2s", 22885592)]),
    (25, [("1s", 2), ("2s", 1)], [("1s", 101291431), ("2s", 23989320)]),
    (26, [("1s", 2)], [("1s", 102873096)]),
    (27, [("1s", 1)], [("1s", 107754008)])])

/-- absorption_edges_ionized_ions_data.py 7-5726 `ENERGY_DATA`, the entry of Cu. -/
def fac29 : FacRow := (29, "Cu", [
    (0, [("1s", 2), ("2s", 2), ("2p", 6), ("3s", 2), ("3p", 6), ("3d", 10), ("4s", 1)], [("1s",
    89850418), ("2p", 9381063), ("2s", 11056186), ("3d", 66319), ("3p", 823107), ("3s", 1311858),
    ("4s", 63418)]),
    (1, [("1s", 2), ("2s", 2), ("2p", 6), ("3s", 2), ("3p", 6), ("3d", 10)], [("1s", 89954139),
    ("2p", 9482596), ("2s", 11157536), ("3d", 168561), ("3p", 925708), ("3s", 1414314)]),
    (2, [("1s", 2), ("2s", 2), ("2p", 6), ("3s", 2), ("3p", 6), ("3d", 9)], [("1s", 90154990),
    ("2p", 9671957), ("2s", 11358135), ("3d", 337945), ("3p", 1065164), ("3s", 1593805)]),
    (3, [("1s", 2), ("2s", 2), ("2p", 6), ("3s", 2), ("3p", 6), ("3d", 8)], [("1s", 90388185),
    ("2p", 9897725), ("2s", 11591226), ("3d", 548270), ("3p", 1246188), ("3s", 1796658)]),
    (4, [("1s", 2), ("2s", 2), ("2p", 6), ("3s", 2), ("3p", 6), ("3d", 7)], [("1s", 90652793),
    ("2p", 10159608), ("2s", 11855099), ("3d", 782730), ("3p", 1463896), ("3s", 2020655)]),
    (5, [("1s", 2), ("2s", 2), ("2p", 6), ("3s", 2), ("3p", 6), ("3d", 6)], [("1s", 90946719),
    ("2p", 10456446), ("2s", 12147231), ("3d", 1019185), ("3p", 1711660), ("3s", 2262973)]),
    (6, [("1s", 2), ("2s", 2), ("2p", 6), ("3s", 2), ("3p", 6), ("3d", 5)], [("1s", 91266966),
    ("2p", 10785904), ("2s", 12464083), ("3d", 1378522), ("3p", 1982408), ("3s", 2520984)]),
    (7, [("1s", 2), ("2s", 2), ("2p", 6), ("3s", 2), ("3p", 6), ("3d", 4)], [("1s", 91620915),
    ("2p", 11141826), ("2s", 12831862), ("3d", 1659508), ("3p", 2261278), ("3s", 2831032)]),
    (8, [("1s", 2), ("2s", 2), ("2p", 6), ("3s", 2), ("3p", 6), ("3d", 3)], [("1s", 91999254),
    ("2p", 11538273), ("2s", 13223797), ("3d", 1977224), ("3p", 2585009), ("3s", 3155170)]),
    (9, [("1s", 2), ("2s", 2), ("2p", 6), ("3s", 2), ("3p", 6), ("3d", 2)], [("1s", 92402995),
    ("2p", 11946569), ("2s", 13641547), ("3d", 2313133), ("3p", 2909686), ("3s", 3494250)]),
    (10, [("1s", 2), ("2s", 2), ("2p", 6), ("3s", 2), ("3p", 6), ("3d", 1)], [("1s", 92832356),
    ("2p", 12376968), ("2s", 14084203), ("3d", 2642829), ("3p", 3255553), ("3s", 3847225)]),
    (11, [("1s", 2), ("2s", 2), ("2p", 6), ("3s", 2), ("3p", 6)], [("1s", 93285687), ("2p",
    12870939), ("2s", 14549803), ("3p", 3657011), ("3s", 4213143)]),
    (12, [("1s", 2), ("2s", 2), ("2p", 6), ("3s", 2), ("3p", 5)], [("1s", 93777690), ("2p",
    13285851), ("2s", 14993477), ("3p", 3992158), ("3s", 4495218)]),
    (13, [("1s", 2), ("2s", 2), ("2p", 6), ("3s", 2), ("3p", 4)], [("1s", 94289073), ("2p",
    13744825), ("2s", 15451302), ("3p", 4345414), ("3s", 4786671)]),
    (14, [("1s", 2), ("2s", 2), ("2p", 6), ("3s", 2), ("3p", 3)], [("1s", 94820196), ("2p",
    14237859), ("2s", 15922518), ("3p", 4771998), ("3s", 5082341)]),
    (15, [("1s", 2), ("2s", 2), ("2p", 6), ("3s", 2), ("3p", 2)], [("1s", 95392262), ("2p",
    14748193), ("2s", 16426402), ("3p", 5166628), ("3s", 5481323)]),
    (16, [("1s", 2), ("2s", 2), ("2p", 6), ("3s", 2), ("3p", 1)], [("1s", 95978531), ("2p",
    15257559), ("2s", 16936078), ("3p", 5551188), ("3s", 5874038)]),
    (17, [("1s", 2), ("2s", 2), ("2p", 6), ("3s", 2)], [("1s", 96588117), ("2p", 15818132), ("2s",
    17467375), ("3s", 6286935)]),
    (18, [("1s", 2), ("2s", 2), ("2p", 6), ("3s", 1)], [("1s", 97150726), ("2p", 16330363), ("2s",
    17943979), ("3s", 6698837)]),
    (19, [("1s", 2), ("2s", 2), ("2p", 6)], [("1s", 97764429), ("2p", 16876883), ("2s", 18480775)]),
    (20, [("1s", 2), ("2s", 2), ("2p", 5)], [("1s", 99218740), ("2p", 17970561), ("2s", 19354052)]),
    (21, [("1s", 2), ("2s", 2), ("2p", 4)], [("1s", 100727362), ("2p", 19154748), ("2s",
    20265074)]),
    (22, [("1s", 2), ("2s", 2), ("2p", 3)], [("1s", 102286505), ("2p", 20432841), ("2s",
    21191264)]),
    (23, [("1s", 2), ("2s", 2), ("2p", 2)], [("1s", 104004705), ("2p", 21827940), ("2s",
    22379633)]),
    (24, [("1s", 2), ("2s", 2), ("2p", 1)], [("1s", 105735180), ("2p", 23098644), ("2s",
    23509195)]),
    (25, [("1s", 2), ("2s", 2)], [("1s", 107532029), ("2s", 24719574)]),
    (26, [("1s", 2), ("2s", 1)], [("1s", 108965249), ("2s", 25866190)]),
    (27, [("1s", 2)], [("1s", 110608329)]),
    (28, [("1s", 1)], [("1s", 115676299)])])

/-- absorption_edges_ionized_ions_data.py 7-5726 `ENERGY_DATA`, the entry of Zn. -/
def fac30 : FacRow := (30, "Zn", [
    (0, [("1s", 2), ("2s", 2), ("2p", 6), ("3s", 2), ("3p", 6), ("3d", 10), ("4s", 2)], [("1s",
    96655429), ("2p", 10276828), ("2s", 12056214), ("3d", 138404), ("3p", 963313), ("3s", 1491644),
    ("4s", 72555)]),
    (1, [("1s", 2), ("2s", 2), ("2p", 6), ("3s", 2), ("3p", 6), ("3d", 10), ("4s", 1)], [("1s",
    96763761), ("2p", 10383583), ("2s", 12161502), ("3d", 243309), ("3p", 1068615), ("3s",
    1593972), ("4s", 166709)]),
    (2, [("1s", 2), ("2s", 2), ("2p", 6), ("3s", 2), ("3p", 6), ("3d", 10)], [("1s", 96891110),
    ("2p", 10507973), ("2s", 12285625), ("3d", 366961), ("3p", 1192981), ("3s", 1718437)]),
    (3, [("1s", 2), ("2s", 2), ("2p", 6), ("3s", 2), ("3p", 6), ("3d", 9)], [("1s", 97132163),
    ("2p", 10736151), ("2s", 12526595), ("3d", 567979), ("3p", 1359788), ("3s", 1928955)]),
    (4, [("1s", 2), ("2s", 2), ("2p", 6), ("3s", 2), ("3p", 6), ("3d", 8)], [("1s", 97402512),
    ("2p", 10997823), ("2s", 12796282), ("3d", 808738), ("3p", 1566629), ("3s", 2159200)]),
    (5, [("1s", 2), ("2s", 2), ("2p", 6), ("3s", 2), ("3p", 6), ("3d", 7)], [("1s", 97702210),
    ("2p", 11294064), ("2s", 13094375), ("3d", 1071597), ("3p", 1809013), ("3s", 2408065)]),
    (6, [("1s", 2), ("2s", 2), ("2p", 6), ("3s", 2), ("3p", 6), ("3d", 6)], [("1s", 98030080),
    ("2p", 11624415), ("2s", 13419105), ("3d", 1333453), ("3p", 2080770), ("3s", 2673695)]),
    (7, [("1s", 2), ("2s", 2), ("2p", 6), ("3s", 2), ("3p", 6), ("3d", 5)], [("1s", 98383461),
    ("2p", 11987057), ("2s", 13767553), ("3d", 1725288), ("3p", 2375108), ("3s", 2954095)]),
    (8, [("1s", 2), ("2s", 2), ("2p", 6), ("3s", 2), ("3p", 6), ("3d", 4)], [("1s", 98769643),
    ("2p", 12375144), ("2s", 14167503), ("3d", 2030193), ("3p", 2676993), ("3s", 3287232)]),
    (9, [("1s", 2), ("2s", 2), ("2p", 6), ("3s", 2), ("3p", 6), ("3d", 3)], [("1s", 99179913),
    ("2p", 12803495), ("2s", 14591038), ("3d", 2372861), ("3p", 3024826), ("3s", 3633826)]),
    (10, [("1s", 2), ("2s", 2), ("2p", 6), ("3s", 2), ("3p", 6), ("3d", 2)], [("1s", 99615267),
    ("2p", 13242402), ("2s", 15039957), ("3d", 2733576), ("3p", 3370032), ("3s", 3994953)]),
    (11, [("1s", 2), ("2s", 2), ("2p", 6), ("3s", 2), ("3p", 6), ("3d", 1)], [("1s", 100076134),
    ("2p", 13702803), ("2s", 15513373), ("3d", 3086348), ("3p", 3737288), ("3s", 4369593)]),
    (12, [("1s", 2), ("2s", 2), ("2p", 6), ("3s", 2), ("3p", 6)], [("1s", 100560890), ("2p",
    14229627), ("2s", 16009413), ("3p", 4162937), ("3s", 4756963)]),
    (13, [("1s", 2), ("2s", 2), ("2p", 6), ("3s", 2), ("3p", 5)], [("1s", 101082168), ("2p",
    14668469), ("2s", 16478091), ("3p", 4517225), ("3s", 5054451)]),
    (14, [("1s", 2), ("2s", 2), ("2p", 6), ("3s", 2), ("3p", 4)], [("1s", 101623195), ("2p",
    15153347), ("2s", 16961024), ("3p", 4892027), ("3s", 5362101)]),
    (15, [("1s", 2), ("2s", 2), ("2p", 6), ("3s", 2), ("3p", 3)], [("1s", 102184163), ("2p",
    15671984), ("2s", 17457298), ("3p", 5335374), ("3s", 5673486)]),
    (16, [("1s", 2), ("2s", 2), ("2p", 6), ("3s", 2), ("3p", 2)], [("1s", 102787178), ("2p",
    16209358), ("2s", 17987165), ("3p", 5756522), ("3s", 6093055)]),
    (17, [("1s", 2), ("2s", 2), ("2p", 6), ("3s", 2), ("3p", 1)], [("1s", 103403670), ("2p",
    16745190), ("2s", 18521596), ("3p", 6161832), ("3s", 6503152)]),
    (18, [("1s", 2), ("2s", 2), ("2p", 6), ("3s", 2)], [("1s", 104044030), ("2p", 17331586), ("2s",
    19078569), ("3s", 6935607)]),
    (19, [("1s", 2), ("2s", 2), ("2p", 6), ("3s", 1)], [("1s", 104633255), ("2p", 17867452), ("2s",
    19576912), ("3s", 7366346)]),
    (20, [("1s", 2), ("2s", 2), ("2p", 6)], [("1s", 105275488), ("2p", 18438467), ("2s",
    20137628)]),
    (21, [("1s", 2), ("2s", 2), ("2p", 5)], [("1s", 106792399), ("2p", 19580029), ("2s",
    21048106)]),
    (22, [("1s", 2), ("2s", 2), ("2p", 4)], [("1s", 108365703), ("2p", 20820700), ("2s",
    21999573)]),
    (23, [("1s", 2), ("2s", 2), ("2p", 3)], [("1s", 109992218), ("2p", 22135316), ("2s",
    22968732)]),
    (24, [("1s", 2), ("2s", 2), ("2p", 2)], [("1s", 111778436), ("2p", 23616939), ("2s",
    24203724)]),
    (25, [("1s", 2), ("2s", 2), ("2p", 1)], [("1s", 113575391), ("2p", 24942015), ("2s",
    25370207)]),
    (26, [("1s", 2), ("2s", 2)], [("1s", 115441324), ("2s", 26626872)]),
    (27, [("1s", 2), ("2s", 1)], [("1s", 116928387), ("2s", 27816531)]),
    (28, [("1s", 2)], [("1s", 118633211)]),
    (29, [("1s", 1)], [("1s", 123889510)])])

/-- absorption_edges_ionized_ions_data.py 7-5726 `ENERGY_DATA`, the entry of Ga. -/
def fac31 : FacRow := (31, "Ga", [
    (0, [("1s", 2), ("2s", 2), ("2p", 6), ("3s", 2), ("3p", 6), ("3d", 10), ("4s", 2), ("4p", 1)],
    [("1s", 103753604), ("2p", 11247202), ("2s", 13135617), ("3d", 242862), ("3p", 1136699), ("3s",
    1708267), ("4p", 55517), ("4s", 101391)]),
    (1, [("1s", 2), ("2s", 2), ("2p", 6), ("3s", 2), ("3p", 6), ("3d", 10), ("4s", 2)], [("1s",
    103845592), ("2p", 11338039), ("2s", 13225700), ("3d", 335895), ("3p", 1230078), ("3s",
    1798056), ("4s", 182196)]),
    (2, [("1s", 2), ("2s", 2), ("2p", 6), ("3s", 2), ("3p", 6), ("3d", 10), ("4s", 1)], [("1s",
    103976965), ("2p", 11467283), ("2s", 13352955), ("3d", 462196), ("3p", 1356594), ("3s",
    1920786), ("4s", 294007)]),
    (3, [("1s", 2), ("2s", 2), ("2p", 6), ("3s", 2), ("3p", 6), ("3d", 10)], [("1s", 104125843),
    ("2p", 11612351), ("2s", 13497682), ("3d", 604968), ("3p", 1500320), ("3s", 2064655)]),
    (4, [("1s", 2), ("2s", 2), ("2p", 6), ("3s", 2), ("3p", 6), ("3d", 9)], [("1s", 104403923),
    ("2p", 11875592), ("2s", 13775208), ("3d", 834384), ("3p", 1691042), ("3s", 2302402)]),
    (5, [("1s", 2), ("2s", 2), ("2p", 6), ("3s", 2), ("3p", 6), ("3d", 8)], [("1s", 104709393),
    ("2p", 12170968), ("2s", 14079230), ("3d", 1103616), ("3p", 1921607), ("3s", 2557706)]),
    (6, [("1s", 2), ("2s", 2), ("2p", 6), ("3s", 2), ("3p", 6), ("3d", 7)], [("1s", 105043037),
    ("2p", 12500133), ("2s", 14410049), ("3d", 1393748), ("3p", 2187403), ("3s", 2830062)]),
    (7, [("1s", 2), ("2s", 2), ("2p", 6), ("3s", 2), ("3p", 6), ("3d", 6)], [("1s", 105404013),
    ("2p", 12863063), ("2s", 14766408), ("3d", 1680329), ("3p", 2482323), ("3s", 3118120)]),
    (8, [("1s", 2), ("2s", 2), ("2p", 6), ("3s", 2), ("3p", 6), ("3d", 5)], [("1s", 105790082),
    ("2p", 13258138), ("2s", 15145658), ("3d", 2103652), ("3p", 2799602), ("3s", 3420186)]),
    (9, [("1s", 2), ("2s", 2), ("2p", 6), ("3s", 2), ("3p", 6), ("3d", 4)], [("1s", 106208156),
    ("2p", 13678206), ("2s", 15577368), ("3d", 2432347), ("3p", 3124486), ("3s", 3776112)]),
    (10, [("1s", 2), ("2s", 2), ("2p", 6), ("3s", 2), ("3p", 6), ("3d", 3)], [("1s", 106650071),
    ("2p", 14137950), ("2s", 16032056), ("3d", 2799688), ("3p", 3496151), ("3s", 4144782)]),
    (11, [("1s", 2), ("2s", 2), ("2p", 6), ("3s", 2), ("3p", 6), ("3d", 2)], [("1s", 107116877),
    ("2p", 14607155), ("2s", 16511870), ("3d", 3185105), ("3p", 3861497), ("3s", 4527760)]),
    (12, [("1s", 2), ("2s", 2), ("2p", 6), ("3s", 2), ("3p", 6), ("3d", 1)], [("1s", 107609108),
    ("2p", 15097291), ("2s", 17015771), ("3d", 3560842), ("3p", 4249862), ("3s", 4923877)]),
    (13, [("1s", 2), ("2s", 2), ("2p", 6), ("3s", 2), ("3p", 6)], [("1s", 108125199), ("2p",
    15656822), ("2s", 17542104), ("3p", 4699581), ("3s", 5332604)]),
    (14, [("1s", 2), ("2s", 2), ("2p", 6), ("3s", 2), ("3p", 5)], [("1s", 108675753), ("2p",
    16119519), ("2s", 18035700), ("3p", 5073023), ("3s", 5645514)]),
    (15, [("1s", 2), ("2s", 2), ("2p", 6), ("3s", 2), ("3p", 4)], [("1s", 109246377), ("2p",
    16630295), ("2s", 18543711), ("3p", 5469637), ("3s", 5969442)]),
    (16, [("1s", 2), ("2s", 2), ("2p", 6), ("3s", 2), ("3p", 3)], [("1s", 109837248), ("2p",
    17174440), ("2s", 19065073), ("3p", 5929084), ("3s", 6296701)]),
    (17, [("1s", 2), ("2s", 2), ("2p", 6), ("3s", 2), ("3p", 2)], [("1s", 110471180), ("2p",
    17738845), ("2s", 19620859), ("3p", 6377934), ("3s", 6736882)]),
    (18, [("1s", 2), ("2s", 2), ("2p", 6), ("3s", 2), ("3p", 1)], [("1s", 111118014), ("2p",
    18301214), ("2s", 20180073), ("3p", 6804172), ("3s", 7164070)]),
    (19, [("1s", 2), ("2s", 2), ("2p", 6), ("3s", 2)], [("1s", 111789200), ("2p", 18913422), ("2s",
    20762746), ("3s", 7616098)]),
    (20, [("1s", 2), ("2s", 2), ("2p", 6), ("3s", 1)], [("1s", 112405079), ("2p", 19472974), ("2s",
    21282846), ("3s", 8065689)]),
    (21, [("1s", 2), ("2s", 2), ("2p", 6)], [("1s", 113075943), ("2p", 20068511), ("2s",
    21867540)]),
    (22, [("1s", 2), ("2s", 2), ("2p", 5)], [("1s", 114655505), ("2p", 21258019), ("2s",
    22815289)]),
    (23, [("1s", 2), ("2s", 2), ("2p", 4)], [("1s", 116293586), ("2p", 22554925), ("2s",
    23807443)]),
    (24, [("1s", 2), ("2s", 2), ("2p", 3)], [("1s", 117988187), ("2p", 23906598), ("2s",
    24821072)]),
    (25, [("1s", 2), ("2s", 2), ("2p", 2)], [("1s", 119842014), ("2p", 25479041), ("2s",
    26101935)]),
    (26, [("1s", 2), ("2s", 2), ("2p", 1)], [("1s", 121705901), ("2p", 26858752), ("2s",
    27304824)]),
    (27, [("1s", 2), ("2s", 2)], [("1s", 123641133), ("2s", 28607922)]),
    (28, [("1s", 2), ("2s", 1)], [("1s", 125182254), ("2s", 29840786)]),
    (29, [("1s", 2)], [("1s", 126949153)]),
    (30, [("1s", 1)], [("1s", 132395109)])])

/-- absorption_edges_ionized_ions_data.py 7-5726 `ENERGY_DATA`, the entry of Ge. -/
def fac32 : FacRow := (32, "Ge", [
    (0, [("1s", 2), ("2s", 2), ("2p", 6), ("3s", 2), ("3p", 6), ("3d", 10), ("4s", 2), ("4p", 2)],
    [("1s", 111109910), ("2p", 12257428), ("2s", 14258807), ("3d", 352439), ("3p", 1316869), ("3s",
    1927918), ("4p", 71836), ("4s", 121225)]),
    (1, [("1s", 2), ("2s", 2), ("2p", 6), ("3s", 2), ("3p", 6), ("3d", 10), ("4s", 2), ("4p", 1)],
    [("1s", 111218581), ("2p", 12363618), ("2s", 14365877), ("3d", 457336), ("3p", 1420208), ("3s",
    2034560), ("4p", 153606), ("4s", 216888)]),
    (2, [("1s", 2), ("2s", 2), ("2p", 6), ("3s", 2), ("3p", 6), ("3d", 10), ("4s", 2)], [("1s",
    111335707), ("2p", 12478908), ("2s", 14480095), ("3d", 574122), ("3p", 1538068), ("3s",
    2147671), ("4s", 316429)]),
    (3, [("1s", 2), ("2s", 2), ("2p", 6), ("3s", 2), ("3p", 6), ("3d", 10), ("4s", 1)], [("1s",
    111487693), ("2p", 12628159), ("2s", 14626821), ("3d", 719025), ("3p", 1682897), ("3s",
    2287920), ("4s", 443658)]),
    (4, [("1s", 2), ("2s", 2), ("2p", 6), ("3s", 2), ("3p", 6), ("3d", 10)], [("1s", 111656484),
    ("2p", 12792299), ("2s", 14790710), ("3d", 879235), ("3p", 1844058), ("3s", 2449336)]),
    (5, [("1s", 2), ("2s", 2), ("2p", 6), ("3s", 2), ("3p", 6), ("3d", 9)], [("1s", 111969601),
    ("2p", 13088290), ("2s", 15102266), ("3d", 1135315), ("3p", 2056949), ("3s", 2712107)]),
    (6, [("1s", 2), ("2s", 2), ("2p", 6), ("3s", 2), ("3p", 6), ("3d", 8)], [("1s", 112309091),
    ("2p", 13415938), ("2s", 15439141), ("3d", 1431808), ("3p", 2309986), ("3s", 2991019)]),
    (7, [("1s", 2), ("2s", 2), ("2p", 6), ("3s", 2), ("3p", 6), ("3d", 7)], [("1s", 112675855),
    ("2p", 13777096), ("2s", 15801712), ("3d", 1748517), ("3p", 2598403), ("3s", 3285989)]),
    (8, [("1s", 2), ("2s", 2), ("2p", 6), ("3s", 2), ("3p", 6), ("3d", 6)], [("1s", 113069462),
    ("2p", 14171860), ("2s", 16188914), ("3d", 2059315), ("3p", 2915855), ("3s", 3595798)]),
    (9, [("1s", 2), ("2s", 2), ("2p", 6), ("3s", 2), ("3p", 6), ("3d", 5)], [("1s", 113487840),
    ("2p", 14598865), ("2s", 16598434), ("3d", 2513341), ("3p", 3255657), ("3s", 3919158)]),
    (10, [("1s", 2), ("2s", 2), ("2p", 6), ("3s", 2), ("3p", 6), ("3d", 4)], [("1s", 113937519),
    ("2p", 15050762), ("2s", 17061510), ("3d", 2865710), ("3p", 3603549), ("3s", 4297514)]),
    (11, [("1s", 2), ("2s", 2), ("2p", 6), ("3s", 2), ("3p", 6), ("3d", 3)], [("1s", 114410933),
    ("2p", 15541541), ("2s", 17547074), ("3d", 3257589), ("3p", 3998910), ("3s", 4688049)]),
    (12, [("1s", 2), ("2s", 2), ("2p", 6), ("3s", 2), ("3p", 6), ("3d", 2)], [("1s", 114909043),
    ("2p", 16040740), ("2s", 18057532), ("3d", 3667626), ("3p", 4383972), ("3s", 5092704)]),
    (13, [("1s", 2), ("2s", 2), ("2p", 6), ("3s", 2), ("3p", 6), ("3d", 1)], [("1s", 115432523),
    ("2p", 16560408), ("2s", 18591722), ("3d", 4066268), ("3p", 4793260), ("3s", 5510150)]),
    (14, [("1s", 2), ("2s", 2), ("2p", 6), ("3s", 2), ("3p", 6)], [("1s", 115979871), ("2p",
    17152435), ("2s", 19148153), ("3p", 5266904), ("3s", 5940113)]),
    (15, [("1s", 2), ("2s", 2), ("2p", 6), ("3s", 2), ("3p", 5)], [("1s", 116559667), ("2p",
    17639001), ("2s", 19666676), ("3p", 5659510), ("3s", 6268456)]),
    (16, [("1s", 2), ("2s", 2), ("2p", 6), ("3s", 2), ("3p", 4)], [("1s", 117159923), ("2p",
    18175692), ("2s", 20199755), ("3p", 6078188), ("3s", 6608770)]),
    (17, [("1s", 2), ("2s", 2), ("2p", 6), ("3s", 2), ("3p", 3)], [("1s", 117780785), ("2p",
    18745292), ("2s", 20746275), ("3p", 6553181), ("3s", 6952230)]),
    (18, [("1s", 2), ("2s", 2), ("2p", 6), ("3s", 2), ("3p", 2)], [("1s", 118445597), ("2p",
    19336706), ("2s", 21327881), ("3p", 7031051), ("3s", 7412928)]),
    (19, [("1s", 2), ("2s", 2), ("2p", 6), ("3s", 2), ("3p", 1)], [("1s", 119122835), ("2p",
    19925616), ("2s", 21911868), ("3p", 7478313), ("3s", 7856893)]),
    (20, [("1s", 2), ("2s", 2), ("2p", 6), ("3s", 2)], [("1s", 119824880), ("2p", 20563662), ("2s",
    22520259), ("3s", 8328496)]),
    (21, [("1s", 2), ("2s", 2), ("2p", 6), ("3s", 1)], [("1s", 120467512), ("2p", 21146930), ("2s",
    23062181), ("3s", 8796997)]),
    (22, [("1s", 2), ("2s", 2), ("2p", 6)], [("1s", 121167100), ("2p", 21767044), ("2s",
    23670895)]),
    (23, [("1s", 2), ("2s", 2), ("2p", 5)], [("1s", 122809377), ("2p", 23004482), ("2s",
    24655996)]),
    (24, [("1s", 2), ("2s", 2), ("2p", 4)], [("1s", 124512414), ("2p", 24357435), ("2s",
    25689171)]),
    (25, [("1s", 2), ("2s", 2), ("2p", 3)], [("1s", 126275613), ("2p", 25746877), ("2s",
    26748629)]),
    (26, [("1s", 2), ("2s", 2), ("2p", 2)], [("1s", 128196680), ("2p", 27414678), ("2s",
    28074603)]),
    (27, [("1s", 2), ("2s", 2), ("2p", 1)], [("1s", 130128027), ("2p", 28849246), ("2s",
    29313437)]),
    (28, [("1s", 2), ("2s", 2)], [("1s", 132132813), ("2s", 30663151)]),
    (29, [("1s", 2), ("2s", 1)], [("1s", 133728194), ("2s", 31939387)]),
    (30, [("1s", 2)], [("1s", 135557541)]),
    (31, [("1s", 1)], [("1s", 141194517)])])

/-- absorption_edges_ionized_ions_data.py 7-5726 `ENERGY_DATA`, the entry of As. -/
def fac33 : FacRow := (33, "As", [
    (0, [("1s", 2), ("2s", 2), ("2p", 6), ("3s", 2), ("3p", 6), ("3d", 10), ("4s", 2), ("4p", 3)],
    [("1s", 118736124), ("2p", 13315376), ("2s", 15436707), ("3d", 476680), ("3p", 1509293), ("3s",
    2161321), ("4p", 90370), ("4s", 141703)]),
    (1, [("1s", 2), ("2s", 2), ("2p", 6), ("3s", 2), ("3p", 6), ("3d", 10), ("4s", 2), ("4p", 2)],
    [("1s", 118851478), ("2p", 13429754), ("2s", 15550478), ("3d", 585752), ("3p", 1620078), ("3s",
    2274520), ("4p", 178362), ("4s", 243829)]),
    (2, [("1s", 2), ("2s", 2), ("2p", 6), ("3s", 2), ("3p", 6), ("3d", 10), ("4s", 2), ("4p", 1)],
    [("1s", 118984104), ("2p", 13558741), ("2s", 15680401), ("3d", 712028), ("3p", 1744366), ("3s",
    2403102), ("4p", 276849), ("4s", 357190)]),
    (3, [("1s", 2), ("2s", 2), ("2p", 6), ("3s", 2), ("3p", 6), ("3d", 10), ("4s", 2)], [("1s",
    119123588), ("2p", 13695564), ("2s", 15815850), ("3d", 849315), ("3p", 1883326), ("3s",
    2536390), ("4s", 472958)]),
    (4, [("1s", 2), ("2s", 2), ("2p", 6), ("3s", 2), ("3p", 6), ("3d", 10), ("4s", 1)], [("1s",
    119294644), ("2p", 13863241), ("2s", 15980476), ("3d", 1011159), ("3p", 2044700), ("3s",
    2692422), ("4s", 614053)]),
    (5, [("1s", 2), ("2s", 2), ("2p", 6), ("3s", 2), ("3p", 6), ("3d", 10)], [("1s", 119482521),
    ("2p", 14045465), ("2s", 16162083), ("3d", 1187892), ("3p", 2222273), ("3s", 2870329)]),
    (6, [("1s", 2), ("2s", 2), ("2p", 6), ("3s", 2), ("3p", 6), ("3d", 9)], [("1s", 119829658),
    ("2p", 14372999), ("2s", 16506854), ("3d", 1469646), ("3p", 2456355), ("3s", 3156859)]),
    (7, [("1s", 2), ("2s", 2), ("2p", 6), ("3s", 2), ("3p", 6), ("3d", 8)], [("1s", 120202320),
    ("2p", 14731925), ("2s", 16875543), ("3d", 1792658), ("3p", 2731102), ("3s", 3458484)]),
    (8, [("1s", 2), ("2s", 2), ("2p", 6), ("3s", 2), ("3p", 6), ("3d", 7)], [("1s", 120601683),
    ("2p", 15124339), ("2s", 17269088), ("3d", 2135361), ("3p", 3041461), ("3s", 3775362)]),
    (9, [("1s", 2), ("2s", 2), ("2p", 6), ("3s", 2), ("3p", 6), ("3d", 6)], [("1s", 121027555),
    ("2p", 15550459), ("2s", 17686634), ("3d", 2470084), ("3p", 3381019), ("3s", 4106542)]),
    (10, [("1s", 2), ("2s", 2), ("2p", 6), ("3s", 2), ("3p", 6), ("3d", 5)], [("1s", 121477984),
    ("2p", 16009027), ("2s", 18126039), ("3d", 2954142), ("3p", 3743114), ("3s", 4450939)]),
    (11, [("1s", 2), ("2s", 2), ("2p", 6), ("3s", 2), ("3p", 6), ("3d", 4)], [("1s", 121959045),
    ("2p", 16492740), ("2s", 18620198), ("3d", 3330184), ("3p", 4114134), ("3s", 4851462)]),
    (12, [("1s", 2), ("2s", 2), ("2p", 6), ("3s", 2), ("3p", 6), ("3d", 3)], [("1s", 122463805),
    ("2p", 17014158), ("2s", 19136333), ("3d", 3746434), ("3p", 4532934), ("3s", 5263641)]),
    (13, [("1s", 2), ("2s", 2), ("2p", 6), ("3s", 2), ("3p", 6), ("3d", 2)], [("1s", 122993069),
    ("2p", 17543079), ("2s", 19677237), ("3d", 4181028), ("3p", 4937398), ("3s", 5689801)]),
    (14, [("1s", 2), ("2s", 2), ("2p", 6), ("3s", 2), ("3p", 6), ("3d", 1)], [("1s", 123547766),
    ("2p", 18092121), ("2s", 20241562), ("3d", 4602564), ("3p", 5367438), ("3s", 6128504)]),
    (15, [("1s", 2), ("2s", 2), ("2p", 6), ("3s", 2), ("3p", 6)], [("1s", 124126309), ("2p",
    18716549), ("2s", 20827989), ("3p", 5864949), ("3s", 6579649)]),
    (16, [("1s", 2), ("2s", 2), ("2p", 6), ("3s", 2), ("3p", 5)], [("1s", 124735334), ("2p",
    19226887), ("2s", 21371341), ("3p", 6276674), ("3s", 6923383)]),
    (17, [("1s", 2), ("2s", 2), ("2p", 6), ("3s", 2), ("3p", 4)], [("1s", 125365251), ("2p",
    19789530), ("2s", 21929498), ("3p", 6717624), ("3s", 7280214)]),
    (18, [("1s", 2), ("2s", 2), ("2p", 6), ("3s", 2), ("3p", 3)], [("1s", 126016202), ("2p",
    20384505), ("2s", 22501244), ("3p", 7207722), ("3s", 7640171)]),
    (19, [("1s", 2), ("2s", 2), ("2p", 6), ("3s", 2), ("3p", 2)], [("1s", 126711831), ("2p",
    21002948), ("2s", 23108610), ("3p", 7715990), ("3s", 8121330)]),
    (20, [("1s", 2), ("2s", 2), ("2p", 6), ("3s", 2), ("3p", 1)], [("1s", 127419592), ("2p",
    21618438), ("2s", 23717402), ("3p", 8184359), ("3s", 8581768)]),
    (21, [("1s", 2), ("2s", 2), ("2p", 6), ("3s", 2)], [("1s", 128152561), ("2p", 22282351), ("2s",
    24351564), ("3s", 9072994)]),
    (22, [("1s", 2), ("2s", 2), ("2p", 6), ("3s", 1)], [("1s", 128821983), ("2p", 22889359), ("2s",
    24915315), ("3s", 9560383)]),
    (23, [("1s", 2), ("2s", 2), ("2p", 6)], [("1s", 129550420), ("2p", 23534129), ("2s",
    25548135)]),
    (24, [("1s", 2), ("2s", 2), ("2p", 5)], [("1s", 131255472), ("2p", 24819506), ("2s",
    26570659)]),
    (25, [("1s", 2), ("2s", 2), ("2p", 4)], [("1s", 133023581), ("2p", 26228134), ("2s",
    27645104)]),
    (26, [("1s", 2), ("2s", 2), ("2p", 3)], [("1s", 134855824), ("2p", 27656277), ("2s",
    28751685)]),
    (27, [("1s", 2), ("2s", 2), ("2p", 2)], [("1s", 136843869), ("2p", 29424298), ("2s",
    30122095)]),
    (28, [("1s", 2), ("2s", 2), ("2p", 1)], [("1s", 138843305), ("2p", 30913962), ("2s",
    31396493)]),
    (29, [("1s", 2), ("2s", 2)], [("1s", 140917889), ("2s", 32793039)]),
    (30, [("1s", 2), ("2s", 1)], [("1s", 142567736), ("2s", 34112804)]),
    (31, [("1s", 2)], [("1s", 144459905)]),
    (32, [("1s", 1)], [("1s", 150289337)])])

/-- absorption_edges_ionized_ions_data.py 7-5726 `ENERGY_DATA`, the entry of Se. -/
def fac34 : FacRow := (34, "Se", [
    (0, [("1s", 2), ("2s", 2), ("2p", 6), ("3s", 2), ("3p", 6), ("3d", 10), ("4s", 2), ("4p", 4)],
    [("1s", 126637936), ("2p", 14425756), ("2s", 16673586), ("3d", 612621), ("3p", 1712421), ("3s",
    2414602), ("4p", 83664), ("4s", 193555)]),
    (1, [("1s", 2), ("2s", 2), ("2p", 6), ("3s", 2), ("3p", 6), ("3d", 10), ("4s", 2), ("4p", 3)],
    [("1s", 126755256), ("2p", 14542617), ("2s", 16789455), ("3d", 728106), ("3p", 1830794), ("3s",
    2527881), ("4p", 204336), ("4s", 271268)]),
    (2, [("1s", 2), ("2s", 2), ("2p", 6), ("3s", 2), ("3p", 6), ("3d", 10), ("4s", 2), ("4p", 2)],
    [("1s", 126893837), ("2p", 14679405), ("2s", 16925434), ("3d", 858401), ("3p", 1963024), ("3s",
    2662453), ("4p", 308887), ("4s", 390862)]),
    (3, [("1s", 2), ("2s", 2), ("2p", 6), ("3s", 2), ("3p", 6), ("3d", 10), ("4s", 2), ("4p", 1)],
    [("1s", 127048341), ("2p", 14829073), ("2s", 17076017), ("3d", 1003507), ("3p", 2105684),
    ("3s", 2810376), ("4p", 422481), ("4s", 519709)]),
    (4, [("1s", 2), ("2s", 2), ("2p", 6), ("3s", 2), ("3p", 6), ("3d", 10), ("4s", 2)], [("1s",
    127208734), ("2p", 14985931), ("2s", 17231210), ("3d", 1159501), ("3p", 2263743), ("3s",
    2962067), ("4s", 650116)]),
    (5, [("1s", 2), ("2s", 2), ("2p", 6), ("3s", 2), ("3p", 6), ("3d", 10), ("4s", 1)], [("1s",
    127398168), ("2p", 15171292), ("2s", 17412930), ("3d", 1337552), ("3p", 2440877), ("3s",
    3133088), ("4s", 804515)]),
    (6, [("1s", 2), ("2s", 2), ("2p", 6), ("3s", 2), ("3p", 6), ("3d", 10)], [("1s", 127604468),
    ("2p", 15370899), ("2s", 17611883), ("3d", 1530051), ("3p", 2634092), ("3s", 3326692)]),
    (7, [("1s", 2), ("2s", 2), ("2p", 6), ("3s", 2), ("3p", 6), ("3d", 9)], [("1s", 127984771),
    ("2p", 15728904), ("2s", 17988495), ("3d", 1836680), ("3p", 2888560), ("3s", 3635966)]),
    (8, [("1s", 2), ("2s", 2), ("2p", 6), ("3s", 2), ("3p", 6), ("3d", 8)], [("1s", 128390051),
    ("2p", 16118372), ("2s", 18388228), ("3d", 2185581), ("3p", 3184397), ("3s", 3959598)]),
    (9, [("1s", 2), ("2s", 2), ("2p", 6), ("3s", 2), ("3p", 6), ("3d", 7)], [("1s", 128821643),
    ("2p", 16541578), ("2s", 18812260), ("3d", 2554017), ("3p", 3516375), ("3s", 4298029)]),
    (10, [("1s", 2), ("2s", 2), ("2p", 6), ("3s", 2), ("3p", 6), ("3d", 6)], [("1s", 129279473),
    ("2p", 16998627), ("2s", 19259696), ("3d", 2912419), ("3p", 3877777), ("3s", 4650253)]),
    (11, [("1s", 2), ("2s", 2), ("2p", 6), ("3s", 2), ("3p", 6), ("3d", 5)], [("1s", 129761743),
    ("2p", 17488421), ("2s", 19728629), ("3d", 3425825), ("3p", 4261793), ("3s", 5015319)]),
    (12, [("1s", 2), ("2s", 2), ("2p", 6), ("3s", 2), ("3p", 6), ("3d", 4)], [("1s", 130274012),
    ("2p", 18004041), ("2s", 20253681), ("3d", 3825637), ("3p", 4655768), ("3s", 5437951)]),
    (13, [("1s", 2), ("2s", 2), ("2p", 6), ("3s", 2), ("3p", 6), ("3d", 3)], [("1s", 130809982),
    ("2p", 18555772), ("2s", 20800145), ("3d", 4266158), ("3p", 5096779), ("3s", 5871569)]),
    (14, [("1s", 2), ("2s", 2), ("2p", 6), ("3s", 2), ("3p", 6), ("3d", 2)], [("1s", 131370332),
    ("2p", 19114144), ("2s", 21371321), ("3d", 4725313), ("3p", 5521807), ("3s", 6319170)]),
    (15, [("1s", 2), ("2s", 2), ("2p", 6), ("3s", 2), ("3p", 6), ("3d", 1)], [("1s", 131956160),
    ("2p", 19692375), ("2s", 21965602), ("3d", 5169670), ("3p", 5972368), ("3s", 6778982)]),
    (16, [("1s", 2), ("2s", 2), ("2p", 6), ("3s", 2), ("3p", 6)], [("1s", 132565886), ("2p",
    20349071), ("2s", 22581916), ("3p", 6493660), ("3s", 7251290)]),
    (17, [("1s", 2), ("2s", 2), ("2p", 6), ("3s", 2), ("3p", 5)], [("1s", 133204141), ("2p",
    20883228), ("2s", 23150158), ("3p", 6924557), ("3s", 7610457)]),
    (18, [("1s", 2), ("2s", 2), ("2p", 6), ("3s", 2), ("3p", 4)], [("1s", 133863721), ("2p",
    21471812), ("2s", 23733349), ("3p", 7387881), ("3s", 7983884)]),
    (19, [("1s", 2), ("2s", 2), ("2p", 6), ("3s", 2), ("3p", 3)], [("1s", 134544872), ("2p",
    22092131), ("2s", 24330422), ("3p", 7892797), ("3s", 8360755)]),
    (20, [("1s", 2), ("2s", 2), ("2p", 6), ("3s", 2), ("3p", 2)], [("1s", 135271276), ("2p",
    22737621), ("2s", 24963479), ("3p", 8432892), ("3s", 8862222)]),
    (21, [("1s", 2), ("2s", 2), ("2p", 6), ("3s", 2), ("3p", 1)], [("1s", 136009682), ("2p",
    23379683), ("2s", 25597108), ("3p", 8922447), ("3s", 9338796)]),
    (22, [("1s", 2), ("2s", 2), ("2p", 6), ("3s", 2)], [("1s", 136773657), ("2p", 24069548), ("2s",
    26257092), ("3s", 9849682)]),
    (23, [("1s", 2), ("2s", 2), ("2p", 6), ("3s", 1)], [("1s", 137469949), ("2p", 24700347), ("2s",
    26842721), ("3s", 10356024)]),
    (24, [("1s", 2), ("2s", 2), ("2p", 6)], [("1s", 138227335), ("2p", 25369803), ("2s",
    27499686)]),
    (25, [("1s", 2), ("2s", 2), ("2p", 5)], [("1s", 139995246), ("2p", 26703147), ("2s",
    28559730)]),
    (26, [("1s", 2), ("2s", 2), ("2p", 4)], [("1s", 141828558), ("2p", 28167085), ("2s",
    29675697)]),
    (27, [("1s", 2), ("2s", 2), ("2p", 3)], [("1s", 143730120), ("2p", 29634892), ("2s",
    30830464)]),
    (28, [("1s", 2), ("2s", 2), ("2p", 2)], [("1s", 145784991), ("2p", 31508365), ("2s",
    32244781)]),
    (29, [("1s", 2), ("2s", 2), ("2p", 1)], [("1s", 147853200), ("2p", 33053349), ("2s",
    33554525)]),
    (30, [("1s", 2), ("2s", 2)], [("1s", 149997852), ("2s", 34998030)]),
    (31, [("1s", 2), ("2s", 1)], [("1s", 151702419), ("2s", 36361531)]),
    (32, [("1s", 2)], [("1s", 153657795)]),
    (33, [("1s", 1)], [("1s", 159681160)])])

/-- absorption_edges_ionized_ions_data.py 7-5726 `ENERGY_DATA`, the entry of Br. -/
def fac35 : FacRow := (35, "Br", [
    (0, [("1s", 2), ("2s", 2), ("2p", 6), ("3s", 2), ("3p", 6), ("3d", 10), ("4s", 2), ("4p", 5)],
    [("1s", 134810394), ("2p", 15583731), ("2s", 17963108), ("3d", 759261), ("3p", 1933233), ("3s",
    2679775), ("4p", 105665), ("4s", 248994)]),
    (1, [("1s", 2), ("2s", 2), ("2p", 6), ("3s", 2), ("3p", 6), ("3d", 10), ("4s", 2), ("4p", 4)],
    [("1s", 134934981), ("2p", 15706547), ("2s", 18086455), ("3d", 880499), ("3p", 2050407), ("3s",
    2800295), ("4p", 201363), ("4s", 333162)]),
    (2, [("1s", 2), ("2s", 2), ("2p", 6), ("3s", 2), ("3p", 6), ("3d", 10), ("4s", 2), ("4p", 3)],
    [("1s", 135075830), ("2p", 15846319), ("2s", 18224959), ("3d", 1017746), ("3p", 2190934),
    ("3s", 2934927), ("4p", 341237), ("4s", 424774)]),
    (3, [("1s", 2), ("2s", 2), ("2p", 6), ("3s", 2), ("3p", 6), ("3d", 10), ("4s", 2), ("4p", 2)],
    [("1s", 135235933), ("2p", 16003752), ("2s", 18381396), ("3d", 1166993), ("3p", 2342730),
    ("3s", 3088741), ("4p", 461390), ("4s", 560146)]),
    (4, [("1s", 2), ("2s", 2), ("2p", 6), ("3s", 2), ("3p", 6), ("3d", 10), ("4s", 2), ("4p", 1)],
    [("1s", 135410995), ("2p", 16172767), ("2s", 18551223), ("3d", 1329899), ("3p", 2502268),
    ("3s", 3254497), ("4p", 589090), ("4s", 703108)]),
    (5, [("1s", 2), ("2s", 2), ("2p", 6), ("3s", 2), ("3p", 6), ("3d", 10), ("4s", 2)], [("1s",
    135591436), ("2p", 16348704), ("2s", 18725234), ("3d", 1503446), ("3p", 2678126), ("3s",
    3423468), ("4s", 847295)]),
    (6, [("1s", 2), ("2s", 2), ("2p", 6), ("3s", 2), ("3p", 6), ("3d", 10), ("4s", 1)], [("1s",
    135798666), ("2p", 16551129), ("2s", 18923446), ("3d", 1697032), ("3p", 2870308), ("3s",
    3608784), ("4s", 1014403)]),
    (7, [("1s", 2), ("2s", 2), ("2p", 6), ("3s", 2), ("3p", 6), ("3d", 10)], [("1s", 136023060),
    ("2p", 16767717), ("2s", 19139256), ("3d", 1904890), ("3p", 3078684), ("3s", 3817586)]),
    (8, [("1s", 2), ("2s", 2), ("2p", 6), ("3s", 2), ("3p", 6), ("3d", 9)], [("1s", 136436002),
    ("2p", 17155444), ("2s", 19546991), ("3d", 2235860), ("3p", 3353047), ("3s", 4148967)]),
    (9, [("1s", 2), ("2s", 2), ("2p", 6), ("3s", 2), ("3p", 6), ("3d", 8)], [("1s", 136873507),
    ("2p", 17574975), ("2s", 19977261), ("3d", 2610313), ("3p", 3669622), ("3s", 4494195)]),
    (10, [("1s", 2), ("2s", 2), ("2p", 6), ("3s", 2), ("3p", 6), ("3d", 7)], [("1s", 137336969),
    ("2p", 18028488), ("2s", 20431272), ("3d", 3004174), ("3p", 4022881), ("3s", 4853784)]),
    (11, [("1s", 2), ("2s", 2), ("2p", 6), ("3s", 2), ("3p", 6), ("3d", 6)], [("1s", 137826575),
    ("2p", 18516198), ("2s", 20908313), ("3d", 3386161), ("3p", 4405852), ("3s", 5226817)]),
    (12, [("1s", 2), ("2s", 2), ("2p", 6), ("3s", 2), ("3p", 6), ("3d", 5)], [("1s", 138340511),
    ("2p", 19036950), ("2s", 21406493), ("3d", 3928256), ("3p", 4811639), ("3s", 5612380)]),
    (13, [("1s", 2), ("2s", 2), ("2p", 6), ("3s", 2), ("3p", 6), ("3d", 4)], [("1s", 138883854),
    ("2p", 19584273), ("2s", 21962281), ("3d", 4352020), ("3p", 5228783), ("3s", 6057062)]),
    (14, [("1s", 2), ("2s", 2), ("2p", 6), ("3s", 2), ("3p", 6), ("3d", 3)], [("1s", 139450882),
    ("2p", 20166258), ("2s", 22538833), ("3d", 4816629), ("3p", 5691255), ("3s", 6511885)]),
    (15, [("1s", 2), ("2s", 2), ("2p", 6), ("3s", 2), ("3p", 6), ("3d", 2)], [("1s", 140042291),
    ("2p", 20753900), ("2s", 23140171), ("3d", 5300396), ("3p", 6137104), ("3s", 6980865)]),
    (16, [("1s", 2), ("2s", 2), ("2p", 6), ("3s", 2), ("3p", 6), ("3d", 1)], [("1s", 140659222),
    ("2p", 21361211), ("2s", 23764291), ("3d", 5767602), ("3p", 6608076), ("3s", 7461762)]),
    (17, [("1s", 2), ("2s", 2), ("2p", 6), ("3s", 2), ("3p", 6)], [("1s", 141300088), ("2p",
    22050107), ("2s", 24410424), ("3p", 7153101), ("3s", 7955173)]),
    (18, [("1s", 2), ("2s", 2), ("2p", 6), ("3s", 2), ("3p", 5)], [("1s", 141967560), ("2p",
    22608003), ("2s", 25003475), ("3p", 7603116), ("3s", 8329738)]),
    (19, [("1s", 2), ("2s", 2), ("2p", 6), ("3s", 2), ("3p", 4)], [("1s", 142656853), ("2p",
    23222581), ("2s", 25611769), ("3p", 8088887), ("3s", 8719946)]),
    (20, [("1s", 2), ("2s", 2), ("2p", 6), ("3s", 2), ("3p", 3)], [("1s", 143368342), ("2p",
    23868235), ("2s", 26234271), ("3p", 8608540), ("3s", 9114212)]),
    (21, [("1s", 2), ("2s", 2), ("2p", 6), ("3s", 2), ("3p", 2)], [("1s", 144125424), ("2p",
    24540687), ("2s", 26892845), ("3p", 9181881), ("3s", 9635711)]),
    (22, [("1s", 2), ("2s", 2), ("2p", 6), ("3s", 2), ("3p", 1)], [("1s", 144894620), ("2p",
    25209382), ("2s", 27551402), ("3p", 9692705), ("3s", 10128124)]),
    (23, [("1s", 2), ("2s", 2), ("2p", 6), ("3s", 2)], [("1s", 145689690), ("2p", 25925283), ("2s",
    28237279), ("3s", 10658711)]),
    (24, [("1s", 2), ("2s", 2), ("2p", 6), ("3s", 1)], [("1s", 146412944), ("2p", 26579949), ("2s",
    28844856), ("3s", 11184075)]),
    (25, [("1s", 2), ("2s", 2), ("2p", 6)], [("1s", 147199382), ("2p", 27274140), ("2s",
    29526026)]),
    (26, [("1s", 2), ("2s", 2), ("2p", 5)], [("1s", 149030213), ("2p", 28655452), ("2s",
    30623664)]),
    (27, [("1s", 2), ("2s", 2), ("2p", 4)], [("1s", 150928819), ("2p", 30174299), ("2s",
    31781336)]),
    (28, [("1s", 2), ("2s", 2), ("2p", 3)], [("1s", 152899887), ("2p", 31682766), ("2s",
    32985102)]),
    (29, [("1s", 2), ("2s", 2), ("2p", 2)], [("1s", 155021544), ("2p", 33667352), ("2s",
    34443046)]),
    (30, [("1s", 2), ("2s", 2), ("2p", 1)], [("1s", 157159309), ("2p", 35267891), ("2s",
    35787988)]),
    (31, [("1s", 2), ("2s", 2)], [("1s", 159374288), ("2s", 37278645)]),
    (32, [("1s", 2), ("2s", 1)], [("1s", 161133806), ("2s", 38686062)]),
    (33, [("1s", 2)], [("1s", 163152785)]),
    (34, [("1s", 1)], [("1s", 169371620)])])

/-- absorption_edges_ionized_ions_data.py 7-5726 `ENERGY_DATA`, the entry of Kr. -/
def fac36 : FacRow := (36, "Kr", [
    (0, [("1s", 2), ("2s", 2), ("2p", 6), ("3s", 2), ("3p", 6), ("3d", 10), ("4s", 2), ("4p", 6)],
    [("1s", 143254841), ("2p", 16790843), ("2s", 19305884), ("3d", 920146), ("3p", 2169161), ("3s",
    2957274), ("4p", 128790), ("4s", 308527)]),
    (1, [("1s", 2), ("2s", 2), ("2p", 6), ("3s", 2), ("3p", 6), ("3d", 10), ("4s", 2), ("4p", 5)],
    [("1s", 143387282), ("2p", 16918712), ("2s", 19436907), ("3d", 1044615), ("3p", 2289505),
    ("3s", 3085080), ("4p", 230792), ("4s", 398772)]),
    (2, [("1s", 2), ("2s", 2), ("2p", 6), ("3s", 2), ("3p", 6), ("3d", 10), ("4s", 2), ("4p", 4)],
    [("1s", 143534815), ("2p", 17063637), ("2s", 19582397), ("3d", 1186556), ("3p", 2427133),
    ("3s", 3226471), ("4p", 342966), ("4s", 496485)]),
    (3, [("1s", 2), ("2s", 2), ("2p", 6), ("3s", 2), ("3p", 6), ("3d", 10), ("4s", 2), ("4p", 3)],
    [("1s", 143697357), ("2p", 17224299), ("2s", 19741437), ("3d", 1343160), ("3p", 2587256),
    ("3s", 3380002), ("4p", 499429), ("4s", 600392)]),
    (4, [("1s", 2), ("2s", 2), ("2p", 6), ("3s", 2), ("3p", 6), ("3d", 10), ("4s", 2), ("4p", 2)],
    [("1s", 143877750), ("2p", 17400987), ("2s", 19916942), ("3d", 1510212), ("3p", 2756676),
    ("3s", 3551775), ("4p", 634538), ("4s", 750429)]),
    (5, [("1s", 2), ("2s", 2), ("2p", 6), ("3s", 2), ("3p", 6), ("3d", 10), ("4s", 2), ("4p", 1)],
    [("1s", 144072641), ("2p", 17588661), ("2s", 20105267), ("3d", 1689973), ("3p", 2932879),
    ("3s", 3734282), ("4p", 775798), ("4s", 906536)]),
    (6, [("1s", 2), ("2s", 2), ("2p", 6), ("3s", 2), ("3p", 6), ("3d", 10), ("4s", 2)], [("1s",
    144272577), ("2p", 17783020), ("2s", 20297440), ("3d", 1880335), ("3p", 3125663), ("3s",
    3919817), ("4s", 1063964)]),
    (7, [("1s", 2), ("2s", 2), ("2p", 6), ("3s", 2), ("3p", 6), ("3d", 10), ("4s", 1)], [("1s",
    144497241), ("2p", 18002111), ("2s", 20511747), ("3d", 2089060), ("3p", 3332464), ("3s",
    4119002), ("4s", 1243421)]),
    (8, [("1s", 2), ("2s", 2), ("2p", 6), ("3s", 2), ("3p", 6), ("3d", 10)], [("1s", 144739473),
    ("2p", 18235386), ("2s", 20744121), ("3d", 2311949), ("3p", 3555650), ("3s", 4342634)]),
    (9, [("1s", 2), ("2s", 2), ("2p", 6), ("3s", 2), ("3p", 6), ("3d", 9)], [("1s", 145184581),
    ("2p", 18652232), ("2s", 21182352), ("3d", 2666842), ("3p", 3849490), ("3s", 4695587)]),
    (10, [("1s", 2), ("2s", 2), ("2p", 6), ("3s", 2), ("3p", 6), ("3d", 8)], [("1s", 145653983),
    ("2p", 19101379), ("2s", 21642681), ("3d", 3066510), ("3p", 4186510), ("3s", 5062054)]),
    (11, [("1s", 2), ("2s", 2), ("2p", 6), ("3s", 2), ("3p", 6), ("3d", 7)], [("1s", 146149131),
    ("2p", 19584965), ("2s", 22126424), ("3d", 3485724), ("3p", 4560885), ("3s", 5442645)]),
    (12, [("1s", 2), ("2s", 2), ("2p", 6), ("3s", 2), ("3p", 6), ("3d", 6)], [("1s", 146670275),
    ("2p", 20102984), ("2s", 22632715), ("3d", 3891122), ("3p", 4965139), ("3s", 5836204)]),
    (13, [("1s", 2), ("2s", 2), ("2p", 6), ("3s", 2), ("3p", 6), ("3d", 5)], [("1s", 147215836),
    ("2p", 20654516), ("2s", 23159945), ("3d", 4461277), ("3p", 5392565), ("3s", 6242139)]),
    (14, [("1s", 2), ("2s", 2), ("2p", 6), ("3s", 2), ("3p", 6), ("3d", 4)], [("1s", 147790026),
    ("2p", 21233531), ("2s", 23746409), ("3d", 4909216), ("3p", 5833054), ("3s", 6708825)]),
    (15, [("1s", 2), ("2s", 2), ("2p", 6), ("3s", 2), ("3p", 6), ("3d", 3)], [("1s", 148388130),
    ("2p", 21845700), ("2s", 24352808), ("3d", 5397900), ("3p", 6316746), ("3s", 7184768)]),
    (16, [("1s", 2), ("2s", 2), ("2p", 6), ("3s", 2), ("3p", 6), ("3d", 2)], [("1s", 149010471),
    ("2p", 22462326), ("2s", 24984161), ("3d", 5906280), ("3p", 6783333), ("3s", 7675012)]),
    (17, [("1s", 2), ("2s", 2), ("2p", 6), ("3s", 2), ("3p", 6), ("3d", 1)], [("1s", 149658489),
    ("2p", 23098616), ("2s", 25638031), ("3d", 6396326), ("3p", 7274553), ("3s", 8176909)]),
    (18, [("1s", 2), ("2s", 2), ("2p", 6), ("3s", 2), ("3p", 6)], [("1s", 150330491), ("2p",
    23819609), ("2s", 26313896), ("3p", 7843265), ("3s", 8691435)]),
    (19, [("1s", 2), ("2s", 2), ("2p", 6), ("3s", 2), ("3p", 5)], [("1s", 151027188), ("2p",
    24401247), ("2s", 26931765), ("3p", 8312382), ("3s", 9081383)]),
    (20, [("1s", 2), ("2s", 2), ("2p", 6), ("3s", 2), ("3p", 4)], [("1s", 151746224), ("2p",
    25041848), ("2s", 27565180), ("3p", 8820590), ("3s", 9488482)]),
    (21, [("1s", 2), ("2s", 2), ("2p", 6), ("3s", 2), ("3p", 3)], [("1s", 152488171), ("2p",
    25712826), ("2s", 28213241), ("3p", 9355007), ("3s", 9900694)]),
    (22, [("1s", 2), ("2s", 2), ("2p", 6), ("3s", 2), ("3p", 2)], [("1s", 153275848), ("2p",
    26412250), ("2s", 28897236), ("3p", 9963162), ("3s", 10441975)]),
    (23, [("1s", 2), ("2s", 2), ("2p", 6), ("3s", 2), ("3p", 1)], [("1s", 154076012), ("2p",
    27107589), ("2s", 29580780), ("3p", 10495285), ("3s", 10949912)]),
    (24, [("1s", 2), ("2s", 2), ("2p", 6), ("3s", 2)], [("1s", 154902262), ("2p", 27849613), ("2s",
    30292613), ("3s", 11500247)]),
    (25, [("1s", 2), ("2s", 2), ("2p", 6), ("3s", 1)], [("1s", 155652594), ("2p", 28528184), ("2s",
    30922178), ("3s", 12044657)]),
    (26, [("1s", 2), ("2s", 2), ("2p", 6)], [("1s", 156468176), ("2p", 29247176), ("2s",
    31627626)]),
    (27, [("1s", 2), ("2s", 2), ("2p", 5)], [("1s", 158362030), ("2p", 30676488), ("2s",
    32762967)]),
    (28, [("1s", 2), ("2s", 2), ("2p", 4)], [("1s", 160326049), ("2p", 32249921), ("2s",
    33962551)]),
    (29, [("1s", 2), ("2s", 2), ("2p", 3)], [("1s", 162366673), ("2p", 33799941), ("2s",
    35215954)]),
    (30, [("1s", 2), ("2s", 2), ("2p", 2)], [("1s", 164555154), ("2p", 35901739), ("2s",
    36717322)]),
    (31, [("1s", 2), ("2s", 2), ("2p", 1)], [("1s", 166763337), ("2p", 37558108), ("2s",
    38097418)]),
    (32, [("1s", 2), ("2s", 2)], [("1s", 169048910), ("2s", 39635409)]),
    (33, [("1s", 2), ("2s", 1)], [("1s", 170863621), ("2s", 41086927)]),
    (34, [("1s", 2)], [("1s", 172946640)]),
    (35, [("1s", 1)], [("1s", 179362524)])])

/-- absorption_edges_ionized_ions_data.py 7-5726 `ENERGY_DATA`. -/
def facData : List FacRow := [fac1, fac2, fac3, fac4, fac5, fac6, fac7, fac8, fac9, fac10, fac11, fac12, fac13, fac14, fac15,
    fac16, fac17, fac18, fac19, fac20, fac21, fac22, fac23, fac24, fac25, fac26, fac27, fac28,
    fac29, fac30, fac31, fac32, fac33, fac34, fac35, fac36]

end Verif.Elements
