import Verif.Model.Makefile
import Verif.Model.Constants

/-!
# The overview libtakum(7), and the macros of takum.h

man/libtakum.sh prints fixed text and a list of references made from `MAN3_LIST`. Of the fixed text the names in the synopsis with their comments and the
names in the description (`.Dv`) are modelled; commas, full stops and the minus sign in front of two names are left out.
-/

namespace Takum.Overview
open Spec (Kind)
open Takum.Iface

/-- A macro: `TAKUM8_NAME … TAKUM64_NAME` (`.log`), `TAKUM_LINEAR8_NAME … TAKUM_LINEAR64_NAME` (`.lin`). -/
structure Macro where
  k : Kind
  w : W
  base : String
  deriving DecidableEq, Repr

/-- takum.h:18-446, the macros in order. -/
def macros : List Macro := [
  ⟨.log, .w8, "NAR"⟩, ⟨.log, .w16, "NAR"⟩, ⟨.log, .w32, "NAR"⟩, ⟨.log, .w64, "NAR"⟩, ⟨.lin, .w8, "NAR"⟩, ⟨.lin, .w16, "NAR"⟩, ⟨.lin, .w32, "NAR"⟩, ⟨.lin, .w64, "NAR"⟩ /- 19-27 -/,
  ⟨.log, .w8, "POSITIVE_MINIMUM"⟩, ⟨.log, .w16, "POSITIVE_MINIMUM"⟩, ⟨.log, .w32, "POSITIVE_MINIMUM"⟩, ⟨.log, .w64, "POSITIVE_MINIMUM"⟩, ⟨.lin, .w8, "POSITIVE_MINIMUM"⟩, ⟨.lin, .w16, "POSITIVE_MINIMUM"⟩, ⟨.lin, .w32, "POSITIVE_MINIMUM"⟩, ⟨.lin, .w64, "POSITIVE_MINIMUM"⟩ /- 30-38 -/,
  ⟨.log, .w8, "POSITIVE_MAXIMUM"⟩, ⟨.log, .w16, "POSITIVE_MAXIMUM"⟩, ⟨.log, .w32, "POSITIVE_MAXIMUM"⟩, ⟨.log, .w64, "POSITIVE_MAXIMUM"⟩, ⟨.lin, .w8, "POSITIVE_MAXIMUM"⟩, ⟨.lin, .w16, "POSITIVE_MAXIMUM"⟩, ⟨.lin, .w32, "POSITIVE_MAXIMUM"⟩, ⟨.lin, .w64, "POSITIVE_MAXIMUM"⟩ /- 41-49 -/,
  ⟨.log, .w8, "2_PI"⟩, ⟨.log, .w16, "2_PI"⟩, ⟨.log, .w32, "2_PI"⟩, ⟨.log, .w64, "2_PI"⟩, ⟨.lin, .w8, "2_PI"⟩, ⟨.lin, .w16, "2_PI"⟩, ⟨.lin, .w32, "2_PI"⟩, ⟨.lin, .w64, "2_PI"⟩ /- 52-60 -/,
  ⟨.log, .w8, "2_PI_OVER_3"⟩, ⟨.log, .w16, "2_PI_OVER_3"⟩, ⟨.log, .w32, "2_PI_OVER_3"⟩, ⟨.log, .w64, "2_PI_OVER_3"⟩, ⟨.lin, .w8, "2_PI_OVER_3"⟩, ⟨.lin, .w16, "2_PI_OVER_3"⟩, ⟨.lin, .w32, "2_PI_OVER_3"⟩, ⟨.lin, .w64, "2_PI_OVER_3"⟩ /- 63-71 -/,
  ⟨.log, .w8, "2_PI_OVER_5"⟩, ⟨.log, .w16, "2_PI_OVER_5"⟩, ⟨.log, .w32, "2_PI_OVER_5"⟩, ⟨.log, .w64, "2_PI_OVER_5"⟩, ⟨.lin, .w8, "2_PI_OVER_5"⟩, ⟨.lin, .w16, "2_PI_OVER_5"⟩, ⟨.lin, .w32, "2_PI_OVER_5"⟩, ⟨.lin, .w64, "2_PI_OVER_5"⟩ /- 74-82 -/,
  ⟨.log, .w8, "3_PI"⟩, ⟨.log, .w16, "3_PI"⟩, ⟨.log, .w32, "3_PI"⟩, ⟨.log, .w64, "3_PI"⟩, ⟨.lin, .w8, "3_PI"⟩, ⟨.lin, .w16, "3_PI"⟩, ⟨.lin, .w32, "3_PI"⟩, ⟨.lin, .w64, "3_PI"⟩ /- 85-93 -/,
  ⟨.log, .w8, "3_PI_OVER_2"⟩, ⟨.log, .w16, "3_PI_OVER_2"⟩, ⟨.log, .w32, "3_PI_OVER_2"⟩, ⟨.log, .w64, "3_PI_OVER_2"⟩, ⟨.lin, .w8, "3_PI_OVER_2"⟩, ⟨.lin, .w16, "3_PI_OVER_2"⟩, ⟨.lin, .w32, "3_PI_OVER_2"⟩, ⟨.lin, .w64, "3_PI_OVER_2"⟩ /- 96-104 -/,
  ⟨.log, .w8, "3_PI_OVER_4"⟩, ⟨.log, .w16, "3_PI_OVER_4"⟩, ⟨.log, .w32, "3_PI_OVER_4"⟩, ⟨.log, .w64, "3_PI_OVER_4"⟩, ⟨.lin, .w8, "3_PI_OVER_4"⟩, ⟨.lin, .w16, "3_PI_OVER_4"⟩, ⟨.lin, .w32, "3_PI_OVER_4"⟩, ⟨.lin, .w64, "3_PI_OVER_4"⟩ /- 107-115 -/,
  ⟨.log, .w8, "3_PI_OVER_5"⟩, ⟨.log, .w16, "3_PI_OVER_5"⟩, ⟨.log, .w32, "3_PI_OVER_5"⟩, ⟨.log, .w64, "3_PI_OVER_5"⟩, ⟨.lin, .w8, "3_PI_OVER_5"⟩, ⟨.lin, .w16, "3_PI_OVER_5"⟩, ⟨.lin, .w32, "3_PI_OVER_5"⟩, ⟨.lin, .w64, "3_PI_OVER_5"⟩ /- 118-126 -/,
  ⟨.log, .w8, "4_PI"⟩, ⟨.log, .w16, "4_PI"⟩, ⟨.log, .w32, "4_PI"⟩, ⟨.log, .w64, "4_PI"⟩, ⟨.lin, .w8, "4_PI"⟩, ⟨.lin, .w16, "4_PI"⟩, ⟨.lin, .w32, "4_PI"⟩, ⟨.lin, .w64, "4_PI"⟩ /- 129-137 -/,
  ⟨.log, .w8, "4_PI_OVER_3"⟩, ⟨.log, .w16, "4_PI_OVER_3"⟩, ⟨.log, .w32, "4_PI_OVER_3"⟩, ⟨.log, .w64, "4_PI_OVER_3"⟩, ⟨.lin, .w8, "4_PI_OVER_3"⟩, ⟨.lin, .w16, "4_PI_OVER_3"⟩, ⟨.lin, .w32, "4_PI_OVER_3"⟩, ⟨.lin, .w64, "4_PI_OVER_3"⟩ /- 140-148 -/,
  ⟨.log, .w8, "4_PI_OVER_5"⟩, ⟨.log, .w16, "4_PI_OVER_5"⟩, ⟨.log, .w32, "4_PI_OVER_5"⟩, ⟨.log, .w64, "4_PI_OVER_5"⟩, ⟨.lin, .w8, "4_PI_OVER_5"⟩, ⟨.lin, .w16, "4_PI_OVER_5"⟩, ⟨.lin, .w32, "4_PI_OVER_5"⟩, ⟨.lin, .w64, "4_PI_OVER_5"⟩ /- 151-159 -/,
  ⟨.log, .w8, "5_PI"⟩, ⟨.log, .w16, "5_PI"⟩, ⟨.log, .w32, "5_PI"⟩, ⟨.log, .w64, "5_PI"⟩, ⟨.lin, .w8, "5_PI"⟩, ⟨.lin, .w16, "5_PI"⟩, ⟨.lin, .w32, "5_PI"⟩, ⟨.lin, .w64, "5_PI"⟩ /- 162-170 -/,
  ⟨.log, .w8, "5_PI_OVER_2"⟩, ⟨.log, .w16, "5_PI_OVER_2"⟩, ⟨.log, .w32, "5_PI_OVER_2"⟩, ⟨.log, .w64, "5_PI_OVER_2"⟩, ⟨.lin, .w8, "5_PI_OVER_2"⟩, ⟨.lin, .w16, "5_PI_OVER_2"⟩, ⟨.lin, .w32, "5_PI_OVER_2"⟩, ⟨.lin, .w64, "5_PI_OVER_2"⟩ /- 173-181 -/,
  ⟨.log, .w8, "5_PI_OVER_3"⟩, ⟨.log, .w16, "5_PI_OVER_3"⟩, ⟨.log, .w32, "5_PI_OVER_3"⟩, ⟨.log, .w64, "5_PI_OVER_3"⟩, ⟨.lin, .w8, "5_PI_OVER_3"⟩, ⟨.lin, .w16, "5_PI_OVER_3"⟩, ⟨.lin, .w32, "5_PI_OVER_3"⟩, ⟨.lin, .w64, "5_PI_OVER_3"⟩ /- 184-192 -/,
  ⟨.log, .w8, "5_PI_OVER_4"⟩, ⟨.log, .w16, "5_PI_OVER_4"⟩, ⟨.log, .w32, "5_PI_OVER_4"⟩, ⟨.log, .w64, "5_PI_OVER_4"⟩, ⟨.lin, .w8, "5_PI_OVER_4"⟩, ⟨.lin, .w16, "5_PI_OVER_4"⟩, ⟨.lin, .w32, "5_PI_OVER_4"⟩, ⟨.lin, .w64, "5_PI_OVER_4"⟩ /- 195-203 -/,
  ⟨.log, .w8, "5_PI_OVER_6"⟩, ⟨.log, .w16, "5_PI_OVER_6"⟩, ⟨.log, .w32, "5_PI_OVER_6"⟩, ⟨.log, .w64, "5_PI_OVER_6"⟩, ⟨.lin, .w8, "5_PI_OVER_6"⟩, ⟨.lin, .w16, "5_PI_OVER_6"⟩, ⟨.lin, .w32, "5_PI_OVER_6"⟩, ⟨.lin, .w64, "5_PI_OVER_6"⟩ /- 206-214 -/,
  ⟨.log, .w8, "6_PI"⟩, ⟨.log, .w16, "6_PI"⟩, ⟨.log, .w32, "6_PI"⟩, ⟨.log, .w64, "6_PI"⟩, ⟨.lin, .w8, "6_PI"⟩, ⟨.lin, .w16, "6_PI"⟩, ⟨.lin, .w32, "6_PI"⟩, ⟨.lin, .w64, "6_PI"⟩ /- 217-225 -/,
  ⟨.log, .w8, "6_PI_OVER_5"⟩, ⟨.log, .w16, "6_PI_OVER_5"⟩, ⟨.log, .w32, "6_PI_OVER_5"⟩, ⟨.log, .w64, "6_PI_OVER_5"⟩, ⟨.lin, .w8, "6_PI_OVER_5"⟩, ⟨.lin, .w16, "6_PI_OVER_5"⟩, ⟨.lin, .w32, "6_PI_OVER_5"⟩, ⟨.lin, .w64, "6_PI_OVER_5"⟩ /- 228-236 -/,
  ⟨.log, .w8, "GAMMA"⟩, ⟨.log, .w16, "GAMMA"⟩, ⟨.log, .w32, "GAMMA"⟩, ⟨.log, .w64, "GAMMA"⟩, ⟨.lin, .w8, "GAMMA"⟩, ⟨.lin, .w16, "GAMMA"⟩, ⟨.lin, .w32, "GAMMA"⟩, ⟨.lin, .w64, "GAMMA"⟩ /- 239-247 -/,
  ⟨.log, .w8, "LB_10"⟩, ⟨.log, .w16, "LB_10"⟩, ⟨.log, .w32, "LB_10"⟩, ⟨.log, .w64, "LB_10"⟩, ⟨.lin, .w8, "LB_10"⟩, ⟨.lin, .w16, "LB_10"⟩, ⟨.lin, .w32, "LB_10"⟩, ⟨.lin, .w64, "LB_10"⟩ /- 250-258 -/,
  ⟨.log, .w8, "LB_E"⟩, ⟨.log, .w16, "LB_E"⟩, ⟨.log, .w32, "LB_E"⟩, ⟨.log, .w64, "LB_E"⟩, ⟨.lin, .w8, "LB_E"⟩, ⟨.lin, .w16, "LB_E"⟩, ⟨.lin, .w32, "LB_E"⟩, ⟨.lin, .w64, "LB_E"⟩ /- 261-269 -/,
  ⟨.log, .w8, "LG_2"⟩, ⟨.log, .w16, "LG_2"⟩, ⟨.log, .w32, "LG_2"⟩, ⟨.log, .w64, "LG_2"⟩, ⟨.lin, .w8, "LG_2"⟩, ⟨.lin, .w16, "LG_2"⟩, ⟨.lin, .w32, "LG_2"⟩, ⟨.lin, .w64, "LG_2"⟩ /- 272-280 -/,
  ⟨.log, .w8, "LG_E"⟩, ⟨.log, .w16, "LG_E"⟩, ⟨.log, .w32, "LG_E"⟩, ⟨.log, .w64, "LG_E"⟩, ⟨.lin, .w8, "LG_E"⟩, ⟨.lin, .w16, "LG_E"⟩, ⟨.lin, .w32, "LG_E"⟩, ⟨.lin, .w64, "LG_E"⟩ /- 283-291 -/,
  ⟨.log, .w8, "LN_10"⟩, ⟨.log, .w16, "LN_10"⟩, ⟨.log, .w32, "LN_10"⟩, ⟨.log, .w64, "LN_10"⟩, ⟨.lin, .w8, "LN_10"⟩, ⟨.lin, .w16, "LN_10"⟩, ⟨.lin, .w32, "LN_10"⟩, ⟨.lin, .w64, "LN_10"⟩ /- 294-302 -/,
  ⟨.log, .w8, "LN_2"⟩, ⟨.log, .w16, "LN_2"⟩, ⟨.log, .w32, "LN_2"⟩, ⟨.log, .w64, "LN_2"⟩, ⟨.lin, .w8, "LN_2"⟩, ⟨.lin, .w16, "LN_2"⟩, ⟨.lin, .w32, "LN_2"⟩, ⟨.lin, .w64, "LN_2"⟩ /- 305-313 -/,
  ⟨.log, .w8, "ONE"⟩, ⟨.log, .w16, "ONE"⟩, ⟨.log, .w32, "ONE"⟩, ⟨.log, .w64, "ONE"⟩, ⟨.lin, .w8, "ONE"⟩, ⟨.lin, .w16, "ONE"⟩, ⟨.lin, .w32, "ONE"⟩, ⟨.lin, .w64, "ONE"⟩ /- 316-324 -/,
  ⟨.log, .w8, "PHI"⟩, ⟨.log, .w16, "PHI"⟩, ⟨.log, .w32, "PHI"⟩, ⟨.log, .w64, "PHI"⟩, ⟨.lin, .w8, "PHI"⟩, ⟨.lin, .w16, "PHI"⟩, ⟨.lin, .w32, "PHI"⟩, ⟨.lin, .w64, "PHI"⟩ /- 327-335 -/,
  ⟨.log, .w8, "PI"⟩, ⟨.log, .w16, "PI"⟩, ⟨.log, .w32, "PI"⟩, ⟨.log, .w64, "PI"⟩, ⟨.lin, .w8, "PI"⟩, ⟨.lin, .w16, "PI"⟩, ⟨.lin, .w32, "PI"⟩, ⟨.lin, .w64, "PI"⟩ /- 338-346 -/,
  ⟨.log, .w8, "PI_OVER_2"⟩, ⟨.log, .w16, "PI_OVER_2"⟩, ⟨.log, .w32, "PI_OVER_2"⟩, ⟨.log, .w64, "PI_OVER_2"⟩, ⟨.lin, .w8, "PI_OVER_2"⟩, ⟨.lin, .w16, "PI_OVER_2"⟩, ⟨.lin, .w32, "PI_OVER_2"⟩, ⟨.lin, .w64, "PI_OVER_2"⟩ /- 349-357 -/,
  ⟨.log, .w8, "PI_OVER_3"⟩, ⟨.log, .w16, "PI_OVER_3"⟩, ⟨.log, .w32, "PI_OVER_3"⟩, ⟨.log, .w64, "PI_OVER_3"⟩, ⟨.lin, .w8, "PI_OVER_3"⟩, ⟨.lin, .w16, "PI_OVER_3"⟩, ⟨.lin, .w32, "PI_OVER_3"⟩, ⟨.lin, .w64, "PI_OVER_3"⟩ /- 360-368 -/,
  ⟨.log, .w8, "PI_OVER_4"⟩, ⟨.log, .w16, "PI_OVER_4"⟩, ⟨.log, .w32, "PI_OVER_4"⟩, ⟨.log, .w64, "PI_OVER_4"⟩, ⟨.lin, .w8, "PI_OVER_4"⟩, ⟨.lin, .w16, "PI_OVER_4"⟩, ⟨.lin, .w32, "PI_OVER_4"⟩, ⟨.lin, .w64, "PI_OVER_4"⟩ /- 371-379 -/,
  ⟨.log, .w8, "PI_OVER_5"⟩, ⟨.log, .w16, "PI_OVER_5"⟩, ⟨.log, .w32, "PI_OVER_5"⟩, ⟨.log, .w64, "PI_OVER_5"⟩, ⟨.lin, .w8, "PI_OVER_5"⟩, ⟨.lin, .w16, "PI_OVER_5"⟩, ⟨.lin, .w32, "PI_OVER_5"⟩, ⟨.lin, .w64, "PI_OVER_5"⟩ /- 382-390 -/,
  ⟨.log, .w8, "PI_OVER_6"⟩, ⟨.log, .w16, "PI_OVER_6"⟩, ⟨.log, .w32, "PI_OVER_6"⟩, ⟨.log, .w64, "PI_OVER_6"⟩, ⟨.lin, .w8, "PI_OVER_6"⟩, ⟨.lin, .w16, "PI_OVER_6"⟩, ⟨.lin, .w32, "PI_OVER_6"⟩, ⟨.lin, .w64, "PI_OVER_6"⟩ /- 393-401 -/,
  ⟨.log, .w8, "SQUARE_ROOT_2"⟩, ⟨.log, .w16, "SQUARE_ROOT_2"⟩, ⟨.log, .w32, "SQUARE_ROOT_2"⟩, ⟨.log, .w64, "SQUARE_ROOT_2"⟩, ⟨.lin, .w8, "SQUARE_ROOT_2"⟩, ⟨.lin, .w16, "SQUARE_ROOT_2"⟩, ⟨.lin, .w32, "SQUARE_ROOT_2"⟩, ⟨.lin, .w64, "SQUARE_ROOT_2"⟩ /- 404-412 -/,
  ⟨.log, .w8, "SQUARE_ROOT_3"⟩, ⟨.log, .w16, "SQUARE_ROOT_3"⟩, ⟨.log, .w32, "SQUARE_ROOT_3"⟩, ⟨.log, .w64, "SQUARE_ROOT_3"⟩, ⟨.lin, .w8, "SQUARE_ROOT_3"⟩, ⟨.lin, .w16, "SQUARE_ROOT_3"⟩, ⟨.lin, .w32, "SQUARE_ROOT_3"⟩, ⟨.lin, .w64, "SQUARE_ROOT_3"⟩ /- 415-423 -/,
  ⟨.log, .w8, "SQUARE_ROOT_5"⟩, ⟨.log, .w16, "SQUARE_ROOT_5"⟩, ⟨.log, .w32, "SQUARE_ROOT_5"⟩, ⟨.log, .w64, "SQUARE_ROOT_5"⟩, ⟨.lin, .w8, "SQUARE_ROOT_5"⟩, ⟨.lin, .w16, "SQUARE_ROOT_5"⟩, ⟨.lin, .w32, "SQUARE_ROOT_5"⟩, ⟨.lin, .w64, "SQUARE_ROOT_5"⟩ /- 426-434 -/,
  ⟨.log, .w8, "SQUARE_ROOT_6"⟩, ⟨.log, .w16, "SQUARE_ROOT_6"⟩, ⟨.log, .w32, "SQUARE_ROOT_6"⟩, ⟨.log, .w64, "SQUARE_ROOT_6"⟩, ⟨.lin, .w8, "SQUARE_ROOT_6"⟩, ⟨.lin, .w16, "SQUARE_ROOT_6"⟩, ⟨.lin, .w32, "SQUARE_ROOT_6"⟩, ⟨.lin, .w64, "SQUARE_ROOT_6"⟩ /- 437-445 -/]

/-- The names of the constants of `Model/Constants.lean` (takum.h:51-446). -/
def _root_.Takum.Const.name : Const → String
  | .pi2 => "2_PI"
  | .pi2_3 => "2_PI_OVER_3"
  | .pi2_5 => "2_PI_OVER_5"
  | .pi3 => "3_PI"
  | .pi3_2 => "3_PI_OVER_2"
  | .pi3_4 => "3_PI_OVER_4"
  | .pi3_5 => "3_PI_OVER_5"
  | .pi4 => "4_PI"
  | .pi4_3 => "4_PI_OVER_3"
  | .pi4_5 => "4_PI_OVER_5"
  | .pi5 => "5_PI"
  | .pi5_2 => "5_PI_OVER_2"
  | .pi5_3 => "5_PI_OVER_3"
  | .pi5_4 => "5_PI_OVER_4"
  | .pi5_6 => "5_PI_OVER_6"
  | .pi6 => "6_PI"
  | .pi6_5 => "6_PI_OVER_5"
  | .gamma => "GAMMA"
  | .lb_10 => "LB_10"
  | .lb_e => "LB_E"
  | .lg_2 => "LG_2"
  | .lg_e => "LG_E"
  | .ln_10 => "LN_10"
  | .ln_2 => "LN_2"
  | .phi => "PHI"
  | .pi1 => "PI"
  | .pi1_2 => "PI_OVER_2"
  | .pi1_3 => "PI_OVER_3"
  | .pi1_4 => "PI_OVER_4"
  | .pi1_5 => "PI_OVER_5"
  | .pi1_6 => "PI_OVER_6"
  | .sqrt2 => "SQUARE_ROOT_2"
  | .sqrt3 => "SQUARE_ROOT_3"
  | .sqrt5 => "SQUARE_ROOT_5"
  | .sqrt6 => "SQUARE_ROOT_6"

/-- The logarithms in the comments. -/
inductive Log
  | lb | lg | ln
  deriving DecidableEq, Repr

/-- Their arguments. -/
inductive Arg
  | e | num (n : ℕ)
  deriving DecidableEq, Repr

/-- The comments of the synopsis: `NaR (Not a Real)`, `Smallest Pos.`, `Largest Pos.`, `aπ/b`, `Euler-Mascheroni const. γ`, `lb(10)` and so on, `1`,
`Golden ratio φ`, `√n`. -/
inductive Note
  | nar | smallest | largest | frac (a b : ℕ) | gamma | log (l : Log) (a : Arg) | one | phi | sqrt (n : ℕ)
  deriving DecidableEq, Repr

/-- man/libtakum.sh:20-59, the lines `.Fd #define TAKUM{,_LINEAR}{8,16,32,64}_NAME /* comment */`. -/
def synopsis : List (String × Note) := [
  ("NAR", .nar) /- 20 -/,
  ("POSITIVE_MINIMUM", .smallest) /- 21 -/,
  ("POSITIVE_MAXIMUM", .largest) /- 22 -/,
  ("2_PI", .frac 2 1) /- 24 -/,
  ("2_PI_OVER_3", .frac 2 3) /- 25 -/,
  ("2_PI_OVER_5", .frac 2 5) /- 26 -/,
  ("3_PI", .frac 3 1) /- 27 -/,
  ("3_PI_OVER_2", .frac 3 2) /- 28 -/,
  ("3_PI_OVER_4", .frac 3 4) /- 29 -/,
  ("3_PI_OVER_5", .frac 3 5) /- 30 -/,
  ("4_PI", .frac 4 1) /- 31 -/,
  ("4_PI_OVER_3", .frac 4 3) /- 32 -/,
  ("4_PI_OVER_5", .frac 4 5) /- 33 -/,
  ("5_PI", .frac 5 1) /- 34 -/,
  ("5_PI_OVER_2", .frac 5 2) /- 35 -/,
  ("5_PI_OVER_3", .frac 5 3) /- 36 -/,
  ("5_PI_OVER_4", .frac 5 4) /- 37 -/,
  ("5_PI_OVER_6", .frac 5 6) /- 38 -/,
  ("6_PI", .frac 6 1) /- 39 -/,
  ("6_PI_OVER_5", .frac 6 5) /- 40 -/,
  ("GAMMA", .gamma) /- 41 -/,
  ("LB_10", .log .lb (.num 10)) /- 42 -/,
  ("LB_E", .log .lb .e) /- 43 -/,
  ("LG_2", .log .lg (.num 2)) /- 44 -/,
  ("LG_E", .log .lg .e) /- 45 -/,
  ("LN_10", .log .ln (.num 10)) /- 46 -/,
  ("LN_2", .log .ln (.num 2)) /- 47 -/,
  ("ONE", .one) /- 48 -/,
  ("PHI", .phi) /- 49 -/,
  ("PI", .frac 1 1) /- 50 -/,
  ("PI_OVER_2", .frac 1 2) /- 51 -/,
  ("PI_OVER_3", .frac 1 3) /- 52 -/,
  ("PI_OVER_4", .frac 1 4) /- 53 -/,
  ("PI_OVER_5", .frac 1 5) /- 54 -/,
  ("PI_OVER_6", .frac 1 6) /- 55 -/,
  ("SQUARE_ROOT_2", .sqrt 2) /- 56 -/,
  ("SQUARE_ROOT_3", .sqrt 3) /- 57 -/,
  ("SQUARE_ROOT_5", .sqrt 5) /- 58 -/,
  ("SQUARE_ROOT_6", .sqrt 6) /- 59 -/]

/-- man/libtakum.sh:77-136, the names in the description. -/
def described : List Macro := [
  /- 77 -/
  ⟨.log, .w8, "NAR"⟩, ⟨.log, .w16, "NAR"⟩, ⟨.log, .w32, "NAR"⟩, ⟨.log, .w64, "NAR"⟩,
  ⟨.lin, .w8, "NAR"⟩, ⟨.lin, .w16, "NAR"⟩, ⟨.lin, .w32, "NAR"⟩, ⟨.lin, .w64, "NAR"⟩,
  /- 81 -/
  ⟨.log, .w8, "POSITIVE_MINIMUM"⟩, ⟨.log, .w16, "POSITIVE_MINIMUM"⟩, ⟨.log, .w32, "POSITIVE_MINIMUM"⟩, ⟨.log, .w64, "POSITIVE_MINIMUM"⟩,
  ⟨.lin, .w8, "POSITIVE_MINIMUM"⟩, ⟨.lin, .w16, "POSITIVE_MINIMUM"⟩, ⟨.lin, .w32, "POSITIVE_MINIMUM"⟩, ⟨.lin, .w64, "POSITIVE_MINIMUM"⟩,
  /- 83 -/
  ⟨.log, .w8, "POSITIVE_MAXIMUM"⟩, ⟨.log, .w16, "POSITIVE_MAXIMUM"⟩, ⟨.log, .w32, "POSITIVE_MAXIMUM"⟩, ⟨.log, .w64, "POSITIVE_MAXIMUM"⟩,
  ⟨.lin, .w8, "POSITIVE_MAXIMUM"⟩, ⟨.lin, .w16, "POSITIVE_MAXIMUM"⟩, ⟨.lin, .w32, "POSITIVE_MAXIMUM"⟩, ⟨.lin, .w64, "POSITIVE_MAXIMUM"⟩,
  /- 87 -/
  ⟨.log, .w8, "POSITIVE_MAXIMUM"⟩,
  /- 89 -/
  ⟨.log, .w8, "POSITIVE_MINIMUM"⟩,
  /- 94 -/
  ⟨.log, .w8, "GAMMA"⟩, ⟨.log, .w16, "GAMMA"⟩, ⟨.log, .w32, "GAMMA"⟩, ⟨.log, .w64, "GAMMA"⟩,
  ⟨.lin, .w8, "GAMMA"⟩, ⟨.lin, .w16, "GAMMA"⟩, ⟨.lin, .w32, "GAMMA"⟩, ⟨.lin, .w64, "GAMMA"⟩,
  /- 96 -/
  ⟨.log, .w8, "PHI"⟩, ⟨.log, .w16, "PHI"⟩, ⟨.log, .w32, "PHI"⟩, ⟨.log, .w64, "PHI"⟩,
  ⟨.lin, .w8, "PHI"⟩, ⟨.lin, .w16, "PHI"⟩, ⟨.lin, .w32, "PHI"⟩, ⟨.lin, .w64, "PHI"⟩,
  /- 98 -/
  ⟨.log, .w8, "SQUARE_ROOT_2"⟩, ⟨.log, .w16, "SQUARE_ROOT_2"⟩, ⟨.log, .w32, "SQUARE_ROOT_2"⟩, ⟨.log, .w64, "SQUARE_ROOT_2"⟩,
  ⟨.lin, .w8, "SQUARE_ROOT_2"⟩, ⟨.lin, .w16, "SQUARE_ROOT_2"⟩, ⟨.lin, .w32, "SQUARE_ROOT_2"⟩, ⟨.lin, .w64, "SQUARE_ROOT_2"⟩,
  /- 100 -/
  ⟨.log, .w8, "SQUARE_ROOT_3"⟩, ⟨.log, .w16, "SQUARE_ROOT_3"⟩, ⟨.log, .w32, "SQUARE_ROOT_3"⟩, ⟨.log, .w64, "SQUARE_ROOT_3"⟩,
  ⟨.lin, .w8, "SQUARE_ROOT_3"⟩, ⟨.lin, .w16, "SQUARE_ROOT_3"⟩, ⟨.lin, .w32, "SQUARE_ROOT_3"⟩, ⟨.lin, .w64, "SQUARE_ROOT_3"⟩,
  /- 102 -/
  ⟨.log, .w8, "SQUARE_ROOT_5"⟩, ⟨.log, .w16, "SQUARE_ROOT_5"⟩, ⟨.log, .w32, "SQUARE_ROOT_5"⟩, ⟨.log, .w64, "SQUARE_ROOT_5"⟩,
  ⟨.lin, .w8, "SQUARE_ROOT_5"⟩, ⟨.lin, .w16, "SQUARE_ROOT_5"⟩, ⟨.lin, .w32, "SQUARE_ROOT_5"⟩, ⟨.lin, .w64, "SQUARE_ROOT_5"⟩,
  /- 104 -/
  ⟨.log, .w8, "SQUARE_ROOT_6"⟩, ⟨.log, .w16, "SQUARE_ROOT_6"⟩, ⟨.log, .w32, "SQUARE_ROOT_6"⟩, ⟨.log, .w64, "SQUARE_ROOT_6"⟩,
  ⟨.lin, .w8, "SQUARE_ROOT_6"⟩, ⟨.lin, .w16, "SQUARE_ROOT_6"⟩, ⟨.lin, .w32, "SQUARE_ROOT_6"⟩, ⟨.lin, .w64, "SQUARE_ROOT_6"⟩,
  /- 106 -/
  ⟨.log, .w8, "ONE"⟩, ⟨.log, .w16, "ONE"⟩, ⟨.log, .w32, "ONE"⟩, ⟨.log, .w64, "ONE"⟩,
  ⟨.lin, .w8, "ONE"⟩, ⟨.lin, .w16, "ONE"⟩, ⟨.lin, .w32, "ONE"⟩, ⟨.lin, .w64, "ONE"⟩,
  /- 110 -/
  ⟨.log, .w8, "LB_10"⟩, ⟨.log, .w16, "LB_10"⟩, ⟨.log, .w32, "LB_10"⟩, ⟨.log, .w64, "LB_10"⟩,
  ⟨.lin, .w8, "LB_10"⟩, ⟨.lin, .w16, "LB_10"⟩, ⟨.lin, .w32, "LB_10"⟩, ⟨.lin, .w64, "LB_10"⟩,
  /- 112 -/
  ⟨.log, .w8, "LB_E"⟩, ⟨.log, .w16, "LB_E"⟩, ⟨.log, .w32, "LB_E"⟩, ⟨.log, .w64, "LB_E"⟩,
  ⟨.lin, .w8, "LB_E"⟩, ⟨.lin, .w16, "LB_E"⟩, ⟨.lin, .w32, "LB_E"⟩, ⟨.lin, .w64, "LB_E"⟩,
  /- 114 -/
  ⟨.log, .w8, "LG_2"⟩, ⟨.log, .w16, "LG_2"⟩, ⟨.log, .w32, "LG_2"⟩, ⟨.log, .w64, "LG_2"⟩,
  ⟨.lin, .w8, "LG_2"⟩, ⟨.lin, .w16, "LG_2"⟩, ⟨.lin, .w32, "LG_2"⟩, ⟨.lin, .w64, "LG_2"⟩,
  /- 116 -/
  ⟨.log, .w8, "LG_E"⟩, ⟨.log, .w16, "LG_E"⟩, ⟨.log, .w32, "LG_E"⟩, ⟨.log, .w64, "LG_E"⟩,
  ⟨.lin, .w8, "LG_E"⟩, ⟨.lin, .w16, "LG_E"⟩, ⟨.lin, .w32, "LG_E"⟩, ⟨.lin, .w64, "LG_E"⟩,
  /- 118 -/
  ⟨.log, .w8, "LN_10"⟩, ⟨.log, .w16, "LN_10"⟩, ⟨.log, .w32, "LN_10"⟩, ⟨.log, .w64, "LN_10"⟩,
  ⟨.lin, .w8, "LN_10"⟩, ⟨.lin, .w16, "LN_10"⟩, ⟨.lin, .w32, "LN_10"⟩, ⟨.lin, .w64, "LN_10"⟩,
  /- 120 -/
  ⟨.log, .w8, "LN_2"⟩, ⟨.log, .w16, "LN_2"⟩, ⟨.log, .w32, "LN_2"⟩, ⟨.log, .w64, "LN_2"⟩,
  ⟨.lin, .w8, "LN_2"⟩, ⟨.lin, .w16, "LN_2"⟩, ⟨.lin, .w32, "LN_2"⟩, ⟨.lin, .w64, "LN_2"⟩,
  /- 126 -/
  ⟨.log, .w8, "2_PI"⟩, ⟨.log, .w8, "2_PI_OVER_3"⟩, ⟨.log, .w8, "2_PI_OVER_5"⟩, ⟨.log, .w8, "3_PI"⟩,
  ⟨.log, .w8, "3_PI_OVER_2"⟩, ⟨.log, .w8, "3_PI_OVER_4"⟩, ⟨.log, .w8, "3_PI_OVER_5"⟩, ⟨.log, .w8, "4_PI"⟩,
  ⟨.log, .w8, "4_PI_OVER_3"⟩, ⟨.log, .w8, "4_PI_OVER_5"⟩, ⟨.log, .w8, "5_PI"⟩, ⟨.log, .w8, "5_PI_OVER_2"⟩,
  ⟨.log, .w8, "5_PI_OVER_3"⟩, ⟨.log, .w8, "5_PI_OVER_4"⟩, ⟨.log, .w8, "5_PI_OVER_6"⟩, ⟨.log, .w8, "6_PI"⟩,
  ⟨.log, .w8, "6_PI_OVER_5"⟩, ⟨.log, .w8, "PI"⟩, ⟨.log, .w8, "PI_OVER_2"⟩, ⟨.log, .w8, "PI_OVER_3"⟩,
  ⟨.log, .w8, "PI_OVER_4"⟩, ⟨.log, .w8, "PI_OVER_5"⟩, ⟨.log, .w8, "PI_OVER_6"⟩, ⟨.lin, .w8, "2_PI"⟩,
  ⟨.lin, .w8, "2_PI_OVER_3"⟩, ⟨.lin, .w8, "2_PI_OVER_5"⟩, ⟨.lin, .w8, "3_PI"⟩, ⟨.lin, .w8, "3_PI_OVER_2"⟩,
  ⟨.lin, .w8, "3_PI_OVER_4"⟩, ⟨.lin, .w8, "3_PI_OVER_5"⟩, ⟨.lin, .w8, "4_PI"⟩, ⟨.lin, .w8, "4_PI_OVER_3"⟩,
  ⟨.lin, .w8, "4_PI_OVER_5"⟩, ⟨.lin, .w8, "5_PI"⟩, ⟨.lin, .w8, "5_PI_OVER_2"⟩, ⟨.lin, .w8, "5_PI_OVER_3"⟩,
  ⟨.lin, .w8, "5_PI_OVER_4"⟩, ⟨.lin, .w8, "5_PI_OVER_6"⟩, ⟨.lin, .w8, "6_PI"⟩, ⟨.lin, .w8, "6_PI_OVER_5"⟩,
  ⟨.lin, .w8, "PI"⟩, ⟨.lin, .w8, "PI_OVER_2"⟩, ⟨.lin, .w8, "PI_OVER_3"⟩, ⟨.lin, .w8, "PI_OVER_4"⟩,
  ⟨.lin, .w8, "PI_OVER_5"⟩, ⟨.lin, .w8, "PI_OVER_6"⟩,
  /- 129 -/
  ⟨.log, .w16, "2_PI"⟩, ⟨.log, .w16, "2_PI_OVER_3"⟩, ⟨.log, .w16, "2_PI_OVER_5"⟩, ⟨.log, .w16, "3_PI"⟩,
  ⟨.log, .w16, "3_PI_OVER_2"⟩, ⟨.log, .w16, "3_PI_OVER_4"⟩, ⟨.log, .w16, "3_PI_OVER_5"⟩, ⟨.log, .w16, "4_PI"⟩,
  ⟨.log, .w16, "4_PI_OVER_3"⟩, ⟨.log, .w16, "4_PI_OVER_5"⟩, ⟨.log, .w16, "5_PI"⟩, ⟨.log, .w16, "5_PI_OVER_2"⟩,
  ⟨.log, .w16, "5_PI_OVER_3"⟩, ⟨.log, .w16, "5_PI_OVER_4"⟩, ⟨.log, .w16, "5_PI_OVER_6"⟩, ⟨.log, .w16, "6_PI"⟩,
  ⟨.log, .w16, "6_PI_OVER_5"⟩, ⟨.log, .w16, "PI"⟩, ⟨.log, .w16, "PI_OVER_2"⟩, ⟨.log, .w16, "PI_OVER_3"⟩,
  ⟨.log, .w16, "PI_OVER_4"⟩, ⟨.log, .w16, "PI_OVER_5"⟩, ⟨.log, .w16, "PI_OVER_6"⟩, ⟨.lin, .w16, "2_PI"⟩,
  ⟨.lin, .w16, "2_PI_OVER_3"⟩, ⟨.lin, .w16, "2_PI_OVER_5"⟩, ⟨.lin, .w16, "3_PI"⟩, ⟨.lin, .w16, "3_PI_OVER_2"⟩,
  ⟨.lin, .w16, "3_PI_OVER_4"⟩, ⟨.lin, .w16, "3_PI_OVER_5"⟩, ⟨.lin, .w16, "4_PI"⟩, ⟨.lin, .w16, "4_PI_OVER_3"⟩,
  ⟨.lin, .w16, "4_PI_OVER_5"⟩, ⟨.lin, .w16, "5_PI"⟩, ⟨.lin, .w16, "5_PI_OVER_2"⟩, ⟨.lin, .w16, "5_PI_OVER_3"⟩,
  ⟨.lin, .w16, "5_PI_OVER_4"⟩, ⟨.lin, .w16, "5_PI_OVER_6"⟩, ⟨.lin, .w16, "6_PI"⟩, ⟨.lin, .w16, "6_PI_OVER_5"⟩,
  ⟨.lin, .w16, "PI"⟩, ⟨.lin, .w16, "PI_OVER_2"⟩, ⟨.lin, .w16, "PI_OVER_3"⟩, ⟨.lin, .w16, "PI_OVER_4"⟩,
  ⟨.lin, .w16, "PI_OVER_5"⟩, ⟨.lin, .w16, "PI_OVER_6"⟩,
  /- 132 -/
  ⟨.log, .w32, "2_PI"⟩, ⟨.log, .w32, "2_PI_OVER_3"⟩, ⟨.log, .w32, "2_PI_OVER_5"⟩, ⟨.log, .w32, "3_PI"⟩,
  ⟨.log, .w32, "3_PI_OVER_2"⟩, ⟨.log, .w32, "3_PI_OVER_4"⟩, ⟨.log, .w32, "3_PI_OVER_5"⟩, ⟨.log, .w32, "4_PI"⟩,
  ⟨.log, .w32, "4_PI_OVER_3"⟩, ⟨.log, .w32, "4_PI_OVER_5"⟩, ⟨.log, .w32, "5_PI"⟩, ⟨.log, .w32, "5_PI_OVER_2"⟩,
  ⟨.log, .w32, "5_PI_OVER_3"⟩, ⟨.log, .w32, "5_PI_OVER_4"⟩, ⟨.log, .w32, "5_PI_OVER_6"⟩, ⟨.log, .w32, "6_PI"⟩,
  ⟨.log, .w32, "6_PI_OVER_5"⟩, ⟨.log, .w32, "PI"⟩, ⟨.log, .w32, "PI_OVER_2"⟩, ⟨.log, .w32, "PI_OVER_3"⟩,
  ⟨.log, .w32, "PI_OVER_4"⟩, ⟨.log, .w32, "PI_OVER_5"⟩, ⟨.log, .w32, "PI_OVER_6"⟩, ⟨.lin, .w32, "2_PI"⟩,
  ⟨.lin, .w32, "2_PI_OVER_3"⟩, ⟨.lin, .w32, "2_PI_OVER_5"⟩, ⟨.lin, .w32, "3_PI"⟩, ⟨.lin, .w32, "3_PI_OVER_2"⟩,
  ⟨.lin, .w32, "3_PI_OVER_4"⟩, ⟨.lin, .w32, "3_PI_OVER_5"⟩, ⟨.lin, .w32, "4_PI"⟩, ⟨.lin, .w32, "4_PI_OVER_3"⟩,
  ⟨.lin, .w32, "4_PI_OVER_5"⟩, ⟨.lin, .w32, "5_PI"⟩, ⟨.lin, .w32, "5_PI_OVER_2"⟩, ⟨.lin, .w32, "5_PI_OVER_3"⟩,
  ⟨.lin, .w32, "5_PI_OVER_4"⟩, ⟨.lin, .w32, "5_PI_OVER_6"⟩, ⟨.lin, .w32, "6_PI"⟩, ⟨.lin, .w32, "6_PI_OVER_5"⟩,
  ⟨.lin, .w32, "PI"⟩, ⟨.lin, .w32, "PI_OVER_2"⟩, ⟨.lin, .w32, "PI_OVER_3"⟩, ⟨.lin, .w32, "PI_OVER_4"⟩,
  ⟨.lin, .w32, "PI_OVER_5"⟩, ⟨.lin, .w32, "PI_OVER_6"⟩,
  /- 136 -/
  ⟨.log, .w64, "2_PI"⟩, ⟨.log, .w64, "2_PI_OVER_3"⟩, ⟨.log, .w64, "2_PI_OVER_5"⟩, ⟨.log, .w64, "3_PI"⟩,
  ⟨.log, .w64, "3_PI_OVER_2"⟩, ⟨.log, .w64, "3_PI_OVER_4"⟩, ⟨.log, .w64, "3_PI_OVER_5"⟩, ⟨.log, .w64, "4_PI"⟩,
  ⟨.log, .w64, "4_PI_OVER_3"⟩, ⟨.log, .w64, "4_PI_OVER_5"⟩, ⟨.log, .w64, "5_PI"⟩, ⟨.log, .w64, "5_PI_OVER_2"⟩,
  ⟨.log, .w64, "5_PI_OVER_3"⟩, ⟨.log, .w64, "5_PI_OVER_4"⟩, ⟨.log, .w64, "5_PI_OVER_6"⟩, ⟨.log, .w64, "6_PI"⟩,
  ⟨.log, .w64, "6_PI_OVER_5"⟩, ⟨.log, .w64, "PI"⟩, ⟨.log, .w64, "PI_OVER_2"⟩, ⟨.log, .w64, "PI_OVER_3"⟩,
  ⟨.log, .w64, "PI_OVER_4"⟩, ⟨.log, .w64, "PI_OVER_5"⟩, ⟨.log, .w64, "PI_OVER_6"⟩, ⟨.lin, .w64, "2_PI"⟩,
  ⟨.lin, .w64, "2_PI_OVER_3"⟩, ⟨.lin, .w64, "2_PI_OVER_5"⟩, ⟨.lin, .w64, "3_PI"⟩, ⟨.lin, .w64, "3_PI_OVER_2"⟩,
  ⟨.lin, .w64, "3_PI_OVER_4"⟩, ⟨.lin, .w64, "3_PI_OVER_5"⟩, ⟨.lin, .w64, "4_PI"⟩, ⟨.lin, .w64, "4_PI_OVER_3"⟩,
  ⟨.lin, .w64, "4_PI_OVER_5"⟩, ⟨.lin, .w64, "5_PI"⟩, ⟨.lin, .w64, "5_PI_OVER_2"⟩, ⟨.lin, .w64, "5_PI_OVER_3"⟩,
  ⟨.lin, .w64, "5_PI_OVER_4"⟩, ⟨.lin, .w64, "5_PI_OVER_6"⟩, ⟨.lin, .w64, "6_PI"⟩, ⟨.lin, .w64, "6_PI_OVER_5"⟩,
  ⟨.lin, .w64, "PI"⟩, ⟨.lin, .w64, "PI_OVER_2"⟩, ⟨.lin, .w64, "PI_OVER_3"⟩, ⟨.lin, .w64, "PI_OVER_4"⟩,
  ⟨.lin, .w64, "PI_OVER_5"⟩, ⟨.lin, .w64, "PI_OVER_6"⟩]

/-- man/libtakum.sh:146-154, the loop over `MAN3_LIST`: `LAST_MAN3` (empty at first) and what is printed. The names are neither empty nor contain blanks. -/
def seeAlsoLoop {α : Type} : List α → Option α → List α
  | [], last => (match last with | some x => [x] | none => [])
  | x :: l, last => (match last with | some _ => [x] | none => []) ++ seeAlsoLoop l (some x)

/-- man/libtakum.sh:145-154, the names after `.Xr`. -/
def seeAlso {α : Type} (list : List α) : List α := seeAlsoLoop list none

/-- Makefile:121-729, `MAN3` as text. -/
def man3List : List String := Make.man3.map fun f => "man/takum" ++ (if f.k = .lin then "_linear" else "") ++ toString f.w.n ++ "_" ++ f.base

/-- Makefile:1244-1245: `MAN3_LIST="$(MAN3)"`, the references of libtakum(7). -/
def references : List String := seeAlso man3List

end Takum.Overview
