import Verif.Model.Util
import Verif.Spec

/-!
# The constants of takum.h

The macros of takum.h other than the special values, by name (`pi2_3` is `2_PI_OVER_3`), family and width.
`NAR` and `ONE` are in `Model/Util.lean`.
-/

namespace Takum
open Spec (Kind)

/-- takum.h:51-445: the names of the constants. -/
inductive Const
  | pi2 | pi2_3 | pi2_5 | pi3 | pi3_2 | pi3_4 | pi3_5 | pi4 | pi4_3 | pi4_5 | pi5 | pi5_2 | pi5_3 | pi5_4 | pi5_6 | pi6 | pi6_5 | gamma | lb_10 | lb_e | lg_2 | lg_e | ln_10 | ln_2 | phi | pi1 | pi1_2 | pi1_3 | pi1_4 | pi1_5 | pi1_6 | sqrt2 | sqrt3 | sqrt5 | sqrt6
  deriving DecidableEq, Repr

/-- Selects by width. -/
def sel (a b c d : ℤ) : W → ℤ
  | .w8 => a
  | .w16 => b
  | .w32 => c
  | .w64 => d

/-- takum.h:52-445, `TAKUM8_…`, `TAKUM16_…`, `TAKUM32_…` and `TAKUM64_…` (`.log`), `TAKUM_LINEAR8_…` and so on
(`.lin`); the lines are given per entry. -/
def Const.macro : Const → Kind → W → ℤ
  | .pi2, .log => sel 81 20826 1364851826 5861993956978437418 -- 52-55
  | .pi2, .lin => sel 78 20040 1313373909 5640897986860631570 -- 57-60
  | .pi2_3, .log => sel 74 18922 1240073127 5326073524507235592 -- 63-66
  | .pi2_3, .lin => sel 72 18480 1211126926 5201750538665646433 -- 68-71
  | .pi2_5, .log => sel 68 17320 1135062992 4875058431539642684 -- 74-77
  | .pi2_5, .lin => sel 66 16910 1108187067 4759627211931676700 -- 79-82
  | .pi3, .log => sel 83 21241 1392062129 5978861317604848105 -- 85-88
  | .pi3, .lin => sel 80 20571 1348153232 5790274041007061575 -- 90-93
  | .pi3_2, .log => sel 80 20531 1345545809 5779075245023556610 -- 96-99
  | .pi3_2, .lin => sel 77 19638 1287020320 5527710182828176525 -- 101-104
  | .pi3_4, .log => sel 75 19163 1255881698 5393970821850295351 -- 107-110
  | .pi3_4, .lin => sel 73 18614 1219911456 5239479806676464781 -- 112-115
  | .pi3_5, .log => sel 73 18706 1225931878 5265337322388048412 -- 118-121
  | .pi3_5, .lin => sel 71 18196 1192518553 5121828184835532842 -- 123-126
  | .pi4, .log => sel 84 21536 1411368146 6061780029559728912 -- 129-132
  | .pi4, .lin => sel 81 20772 1361330027 5846867943023289097 -- 134-137
  | .pi4_3, .log => sel 79 20342 1333105767 5725645669669818581 -- 140-143
  | .pi4_3, .lin => sel 76 19504 1278235790 5489980914817358177 -- 145-148
  | .pi4_5, .log => sel 75 19295 1264543912 5431174746297810027 -- 151-154
  | .pi4_5, .lin => sel 73 18695 1225182174 5262117367482955790 -- 156-159
  | .pi5, .log => sel 85 21764 1426343056 6126096779290852382 -- 162-165
  | .pi5, .lin => sel 82 20973 1374506821 5903461845039516619 -- 167-170
  | .pi5_2, .log => sel 82 21054 1379826736 5926310706709560887 -- 173-176
  | .pi5_2, .lin => sel 80 20443 1339727498 5754085790893086614 -- 178-181
  | .pi5_3, .log => sel 81 20639 1352616434 5809443346083150200 -- 184-187
  | .pi5_3, .lin => sel 77 19772 1295804850 5565439450838994873 -- 189-192
  | .pi5_4, .log => sel 79 20209 1324443553 5688441745222303905 -- 195-198
  | .pi5_4, .lin => sel 76 19419 1272618634 5465855414741374870 -- 200-203
  | .pi5_6, .log => sel 76 19379 1270022947 5454707023969482530 -- 206-209
  | .pi5_6, .lin => sel 73 18748 1228695986 5277209074687283129 -- 211-214
  | .pi6, .log => sel 86 21951 1438578449 6178647390186139600 -- 217-220
  | .pi6, .lin => sel 82 21083 1381707664 5934389229082917447 -- 222-225
  | .pi6_5, .log => sel 79 20126 1318964518 5664909467550631402 -- 228-231
  | .pi6_5, .lin => sel 76 19338 1267347916 5443217853934883861 -- 233-236
  | .gamma, .log => sel 56 14235 932875042 4006667796493970688 -- 239-242
  | .gamma, .lin => sel 57 14652 960251518 4124248866681457786 -- 244-247
  | .lb_10, .log => sel 78 19867 1301985159 5591983679339631233 -- 250-253
  | .lb_10, .lin => sel 75 19109 1252316098 5378656686748261464 -- 255-258
  | .lb_e, .log => sel 70 17885 1172126887 5034246646282250152 -- 261-264
  | .lb_e, .lin => sel 68 17291 1133159347 4866882334739234572 -- 266-269
  | .lg_2, .log => sel 50 12901 845498489 3631388357515144575 -- 272-275
  | .lg_2, .lin => sel 53 13521 886113492 3805828469353250749 -- 277-280
  | .lg_e, .log => sel 53 13652 894691020 3842668671442575700 -- 283-286
  | .lg_e, .lin => sel 55 14067 921886405 3959471961338889101 -- 288-291
  | .ln_10, .log => sel 75 19116 1252792628 5380703365412200108 -- 294-297
  | .ln_10, .lin => sel 73 18587 1218112623 5231753878316598625 -- 299-302
  | .ln_2, .log => sel 58 14883 975356761 4189125390572525656 -- 305-308
  | .ln_2, .lin => sel 59 15127 991371647 4257908804145706907 -- 310-313
  | .phi, .log => sel 72 18355 1202916140 5166485479809712741 -- 327-330
  | .phi, .lin => sel 69 17650 1156692942 4967958356531237857 -- 332-335
  | .pi1, .log => sel 77 19752 1294493732 5559808245760056966 -- 338-341
  | .pi1, .lin => sel 74 19016 1246265045 5352667610708919826 -- 343-346
  | .pi1_2, .log => sel 71 18234 1194962633 5132325430464136561 -- 349-352
  | .pi1_2, .lin => sel 69 17553 1150352810 4940727698383604771 -- 354-357
  | .pi1_3, .log => sel 65 16573 1086121422 4664855987958493812 -- 360-363
  | .pi1_3, .lin => sel 64 16481 1080076572 4638893554297057986 -- 365-368
  | .pi1_4, .log => sel 60 15395 1008897354 4333181140138970582 -- 371-374
  | .pi1_4, .lin => sel 61 15505 1016135082 4364266946080181283 -- 376-379
  | .pi1_5, .log => sel 57 14481 948997713 4075914141214476705 -- 382-385
  | .pi1_5, .lin => sel 58 14862 973969339 4183166459628253212 -- 387-390
  | .pi1_6, .log => sel 55 14035 919790119 3950468481878646125 -- 393-396
  | .pi1_6, .lin => sel 56 14433 945858844 4062432801993634498 -- 398-401
  | .sqrt2, .log => sel 70 17804 1166774464 5011258163589970893 -- 404-407
  | .sqrt2, .lin => sel 67 17232 1129336627 4850463880207263304 -- 409-412
  | .sqrt3, .log => sel 72 18533 1214577311 5216569827786801830 -- 415-418
  | .sqrt3, .lin => sel 70 17883 1171996020 5033684577682871610 -- 420-423
  | .sqrt5, .log => sel 74 19056 1248858238 5363805289472806107 -- 426-429
  | .sqrt5, .lin => sel 72 18553 1215880679 5222167751706880496 -- 431-434
  | .sqrt6, .log => sel 75 19243 1261093631 5416355900368093325 -- 437-440
  | .sqrt6, .lin => sel 73 18662 1223041925 5252925069550177183 -- 442-445

/-- The constant as a bit pattern. -/
def Const.takum (c : Const) (k : Kind) (w : W) : T w := BitVec.ofInt w.n (c.macro k w)

/-- takum.h:30-38, `TAKUM*_POSITIVE_MINIMUM` and `TAKUM_LINEAR*_POSITIVE_MINIMUM`. -/
def POSITIVE_MINIMUM (w : W) : T w := 1#w.n

/-- takum.h:41-49, `TAKUM*_POSITIVE_MAXIMUM` and `TAKUM_LINEAR*_POSITIVE_MAXIMUM`: `INT8_MAX` and so on. -/
def POSITIVE_MAXIMUM (w : W) : T w := BitVec.ofInt w.n (2 ^ (w.n - 1) - 1)

/-- All names. -/
def Const.all : List Const := [.pi2, .pi2_3, .pi2_5, .pi3, .pi3_2, .pi3_4, .pi3_5, .pi4, .pi4_3, .pi4_5, .pi5, .pi5_2, .pi5_3, .pi5_4, .pi5_6, .pi6, .pi6_5, .gamma, .lb_10, .lb_e, .lg_2, .lg_e, .ln_10, .ln_2, .phi, .pi1, .pi1_2, .pi1_3, .pi1_4, .pi1_5, .pi1_6, .sqrt2, .sqrt3, .sqrt5, .sqrt6]

end Takum
