import Verif.Model.Kinds

/-!
# The interface: takum.h and what the sources define

The prototypes of takum.h in their order, and the function definitions of every file in `src`, macro by macro and function by function, with
their linkage. Names are split into the type and the rest (`takum_linear16_sin` is `⟨.lin, .w16, "sin"⟩`). The bodies are modelled elsewhere.
-/

namespace Takum.Iface
open Spec (Kind)

/-- The types that occur in the prototypes (takum.h:8-16 and those of C99). `takumN` and `takum_linearN` are kept apart although they are the same
integer type. -/
inductive CType
  | takum (k : Kind) (w : W) | int64 | uint8 | float | double | longDouble
  deriving DecidableEq, Repr

/-- The name of a function of the interface: `takumW_base` or `takum_linearW_base` (takum.h:448-1284). -/
structure Fn where
  k : Kind
  w : W
  base : String
  deriving DecidableEq, Repr

/-- A prototype: the type that is returned, the name, the types of the arguments (takum.h:448-1284). -/
structure Proto where
  ret : CType
  fn : Fn
  args : List CType
  deriving DecidableEq, Repr

/-- takum.h:448-1284, the prototypes, in the order of the file. -/
def header : List Proto := [
  ⟨.takum .log .w8, ⟨.log, .w8, "10_raised"⟩, [.takum .log .w8]⟩,
  ⟨.takum .log .w16, ⟨.log, .w16, "10_raised"⟩, [.takum .log .w16]⟩,
  ⟨.takum .log .w32, ⟨.log, .w32, "10_raised"⟩, [.takum .log .w32]⟩,
  ⟨.takum .log .w64, ⟨.log, .w64, "10_raised"⟩, [.takum .log .w64]⟩,
  ⟨.takum .lin .w8, ⟨.lin, .w8, "10_raised"⟩, [.takum .lin .w8]⟩,
  ⟨.takum .lin .w16, ⟨.lin, .w16, "10_raised"⟩, [.takum .lin .w16]⟩,
  ⟨.takum .lin .w32, ⟨.lin, .w32, "10_raised"⟩, [.takum .lin .w32]⟩,
  ⟨.takum .lin .w64, ⟨.lin, .w64, "10_raised"⟩, [.takum .lin .w64]⟩,
  ⟨.takum .log .w8, ⟨.log, .w8, "10_raised_minus_1"⟩, [.takum .log .w8]⟩,
  ⟨.takum .log .w16, ⟨.log, .w16, "10_raised_minus_1"⟩, [.takum .log .w16]⟩,
  ⟨.takum .log .w32, ⟨.log, .w32, "10_raised_minus_1"⟩, [.takum .log .w32]⟩,
  ⟨.takum .log .w64, ⟨.log, .w64, "10_raised_minus_1"⟩, [.takum .log .w64]⟩,
  ⟨.takum .lin .w8, ⟨.lin, .w8, "10_raised_minus_1"⟩, [.takum .lin .w8]⟩,
  ⟨.takum .lin .w16, ⟨.lin, .w16, "10_raised_minus_1"⟩, [.takum .lin .w16]⟩,
  ⟨.takum .lin .w32, ⟨.lin, .w32, "10_raised_minus_1"⟩, [.takum .lin .w32]⟩,
  ⟨.takum .lin .w64, ⟨.lin, .w64, "10_raised_minus_1"⟩, [.takum .lin .w64]⟩,
  ⟨.takum .log .w8, ⟨.log, .w8, "2_raised"⟩, [.takum .log .w8]⟩,
  ⟨.takum .log .w16, ⟨.log, .w16, "2_raised"⟩, [.takum .log .w16]⟩,
  ⟨.takum .log .w32, ⟨.log, .w32, "2_raised"⟩, [.takum .log .w32]⟩,
  ⟨.takum .log .w64, ⟨.log, .w64, "2_raised"⟩, [.takum .log .w64]⟩,
  ⟨.takum .lin .w8, ⟨.lin, .w8, "2_raised"⟩, [.takum .lin .w8]⟩,
  ⟨.takum .lin .w16, ⟨.lin, .w16, "2_raised"⟩, [.takum .lin .w16]⟩,
  ⟨.takum .lin .w32, ⟨.lin, .w32, "2_raised"⟩, [.takum .lin .w32]⟩,
  ⟨.takum .lin .w64, ⟨.lin, .w64, "2_raised"⟩, [.takum .lin .w64]⟩,
  ⟨.takum .log .w8, ⟨.log, .w8, "2_raised_minus_1"⟩, [.takum .log .w8]⟩,
  ⟨.takum .log .w16, ⟨.log, .w16, "2_raised_minus_1"⟩, [.takum .log .w16]⟩,
  ⟨.takum .log .w32, ⟨.log, .w32, "2_raised_minus_1"⟩, [.takum .log .w32]⟩,
  ⟨.takum .log .w64, ⟨.log, .w64, "2_raised_minus_1"⟩, [.takum .log .w64]⟩,
  ⟨.takum .lin .w8, ⟨.lin, .w8, "2_raised_minus_1"⟩, [.takum .lin .w8]⟩,
  ⟨.takum .lin .w16, ⟨.lin, .w16, "2_raised_minus_1"⟩, [.takum .lin .w16]⟩,
  ⟨.takum .lin .w32, ⟨.lin, .w32, "2_raised_minus_1"⟩, [.takum .lin .w32]⟩,
  ⟨.takum .lin .w64, ⟨.lin, .w64, "2_raised_minus_1"⟩, [.takum .lin .w64]⟩,
  ⟨.takum .log .w8, ⟨.log, .w8, "absolute"⟩, [.takum .log .w8]⟩,
  ⟨.takum .log .w16, ⟨.log, .w16, "absolute"⟩, [.takum .log .w16]⟩,
  ⟨.takum .log .w32, ⟨.log, .w32, "absolute"⟩, [.takum .log .w32]⟩,
  ⟨.takum .log .w64, ⟨.log, .w64, "absolute"⟩, [.takum .log .w64]⟩,
  ⟨.takum .lin .w8, ⟨.lin, .w8, "absolute"⟩, [.takum .lin .w8]⟩,
  ⟨.takum .lin .w16, ⟨.lin, .w16, "absolute"⟩, [.takum .lin .w16]⟩,
  ⟨.takum .lin .w32, ⟨.lin, .w32, "absolute"⟩, [.takum .lin .w32]⟩,
  ⟨.takum .lin .w64, ⟨.lin, .w64, "absolute"⟩, [.takum .lin .w64]⟩,
  ⟨.takum .log .w8, ⟨.log, .w8, "addition"⟩, [.takum .log .w8, .takum .log .w8]⟩,
  ⟨.takum .log .w16, ⟨.log, .w16, "addition"⟩, [.takum .log .w16, .takum .log .w16]⟩,
  ⟨.takum .log .w32, ⟨.log, .w32, "addition"⟩, [.takum .log .w32, .takum .log .w32]⟩,
  ⟨.takum .log .w64, ⟨.log, .w64, "addition"⟩, [.takum .log .w64, .takum .log .w64]⟩,
  ⟨.takum .lin .w8, ⟨.lin, .w8, "addition"⟩, [.takum .lin .w8, .takum .lin .w8]⟩,
  ⟨.takum .lin .w16, ⟨.lin, .w16, "addition"⟩, [.takum .lin .w16, .takum .lin .w16]⟩,
  ⟨.takum .lin .w32, ⟨.lin, .w32, "addition"⟩, [.takum .lin .w32, .takum .lin .w32]⟩,
  ⟨.takum .lin .w64, ⟨.lin, .w64, "addition"⟩, [.takum .lin .w64, .takum .lin .w64]⟩,
  ⟨.takum .log .w8, ⟨.log, .w8, "arccos"⟩, [.takum .log .w8]⟩,
  ⟨.takum .log .w16, ⟨.log, .w16, "arccos"⟩, [.takum .log .w16]⟩,
  ⟨.takum .log .w32, ⟨.log, .w32, "arccos"⟩, [.takum .log .w32]⟩,
  ⟨.takum .log .w64, ⟨.log, .w64, "arccos"⟩, [.takum .log .w64]⟩,
  ⟨.takum .lin .w8, ⟨.lin, .w8, "arccos"⟩, [.takum .lin .w8]⟩,
  ⟨.takum .lin .w16, ⟨.lin, .w16, "arccos"⟩, [.takum .lin .w16]⟩,
  ⟨.takum .lin .w32, ⟨.lin, .w32, "arccos"⟩, [.takum .lin .w32]⟩,
  ⟨.takum .lin .w64, ⟨.lin, .w64, "arccos"⟩, [.takum .lin .w64]⟩,
  ⟨.takum .log .w8, ⟨.log, .w8, "arccos_over_pi"⟩, [.takum .log .w8]⟩,
  ⟨.takum .log .w16, ⟨.log, .w16, "arccos_over_pi"⟩, [.takum .log .w16]⟩,
  ⟨.takum .log .w32, ⟨.log, .w32, "arccos_over_pi"⟩, [.takum .log .w32]⟩,
  ⟨.takum .log .w64, ⟨.log, .w64, "arccos_over_pi"⟩, [.takum .log .w64]⟩,
  ⟨.takum .lin .w8, ⟨.lin, .w8, "arccos_over_pi"⟩, [.takum .lin .w8]⟩,
  ⟨.takum .lin .w16, ⟨.lin, .w16, "arccos_over_pi"⟩, [.takum .lin .w16]⟩,
  ⟨.takum .lin .w32, ⟨.lin, .w32, "arccos_over_pi"⟩, [.takum .lin .w32]⟩,
  ⟨.takum .lin .w64, ⟨.lin, .w64, "arccos_over_pi"⟩, [.takum .lin .w64]⟩,
  ⟨.takum .log .w8, ⟨.log, .w8, "arccot"⟩, [.takum .log .w8]⟩,
  ⟨.takum .log .w16, ⟨.log, .w16, "arccot"⟩, [.takum .log .w16]⟩,
  ⟨.takum .log .w32, ⟨.log, .w32, "arccot"⟩, [.takum .log .w32]⟩,
  ⟨.takum .log .w64, ⟨.log, .w64, "arccot"⟩, [.takum .log .w64]⟩,
  ⟨.takum .lin .w8, ⟨.lin, .w8, "arccot"⟩, [.takum .lin .w8]⟩,
  ⟨.takum .lin .w16, ⟨.lin, .w16, "arccot"⟩, [.takum .lin .w16]⟩,
  ⟨.takum .lin .w32, ⟨.lin, .w32, "arccot"⟩, [.takum .lin .w32]⟩,
  ⟨.takum .lin .w64, ⟨.lin, .w64, "arccot"⟩, [.takum .lin .w64]⟩,
  ⟨.takum .log .w8, ⟨.log, .w8, "arccot_over_pi"⟩, [.takum .log .w8]⟩,
  ⟨.takum .log .w16, ⟨.log, .w16, "arccot_over_pi"⟩, [.takum .log .w16]⟩,
  ⟨.takum .log .w32, ⟨.log, .w32, "arccot_over_pi"⟩, [.takum .log .w32]⟩,
  ⟨.takum .log .w64, ⟨.log, .w64, "arccot_over_pi"⟩, [.takum .log .w64]⟩,
  ⟨.takum .lin .w8, ⟨.lin, .w8, "arccot_over_pi"⟩, [.takum .lin .w8]⟩,
  ⟨.takum .lin .w16, ⟨.lin, .w16, "arccot_over_pi"⟩, [.takum .lin .w16]⟩,
  ⟨.takum .lin .w32, ⟨.lin, .w32, "arccot_over_pi"⟩, [.takum .lin .w32]⟩,
  ⟨.takum .lin .w64, ⟨.lin, .w64, "arccot_over_pi"⟩, [.takum .lin .w64]⟩,
  ⟨.takum .log .w8, ⟨.log, .w8, "arccsc"⟩, [.takum .log .w8]⟩,
  ⟨.takum .log .w16, ⟨.log, .w16, "arccsc"⟩, [.takum .log .w16]⟩,
  ⟨.takum .log .w32, ⟨.log, .w32, "arccsc"⟩, [.takum .log .w32]⟩,
  ⟨.takum .log .w64, ⟨.log, .w64, "arccsc"⟩, [.takum .log .w64]⟩,
  ⟨.takum .lin .w8, ⟨.lin, .w8, "arccsc"⟩, [.takum .lin .w8]⟩,
  ⟨.takum .lin .w16, ⟨.lin, .w16, "arccsc"⟩, [.takum .lin .w16]⟩,
  ⟨.takum .lin .w32, ⟨.lin, .w32, "arccsc"⟩, [.takum .lin .w32]⟩,
  ⟨.takum .lin .w64, ⟨.lin, .w64, "arccsc"⟩, [.takum .lin .w64]⟩,
  ⟨.takum .log .w8, ⟨.log, .w8, "arccsc_over_pi"⟩, [.takum .log .w8]⟩,
  ⟨.takum .log .w16, ⟨.log, .w16, "arccsc_over_pi"⟩, [.takum .log .w16]⟩,
  ⟨.takum .log .w32, ⟨.log, .w32, "arccsc_over_pi"⟩, [.takum .log .w32]⟩,
  ⟨.takum .log .w64, ⟨.log, .w64, "arccsc_over_pi"⟩, [.takum .log .w64]⟩,
  ⟨.takum .lin .w8, ⟨.lin, .w8, "arccsc_over_pi"⟩, [.takum .lin .w8]⟩,
  ⟨.takum .lin .w16, ⟨.lin, .w16, "arccsc_over_pi"⟩, [.takum .lin .w16]⟩,
  ⟨.takum .lin .w32, ⟨.lin, .w32, "arccsc_over_pi"⟩, [.takum .lin .w32]⟩,
  ⟨.takum .lin .w64, ⟨.lin, .w64, "arccsc_over_pi"⟩, [.takum .lin .w64]⟩,
  ⟨.takum .log .w8, ⟨.log, .w8, "arcosh"⟩, [.takum .log .w8]⟩,
  ⟨.takum .log .w16, ⟨.log, .w16, "arcosh"⟩, [.takum .log .w16]⟩,
  ⟨.takum .log .w32, ⟨.log, .w32, "arcosh"⟩, [.takum .log .w32]⟩,
  ⟨.takum .log .w64, ⟨.log, .w64, "arcosh"⟩, [.takum .log .w64]⟩,
  ⟨.takum .lin .w8, ⟨.lin, .w8, "arcosh"⟩, [.takum .lin .w8]⟩,
  ⟨.takum .lin .w16, ⟨.lin, .w16, "arcosh"⟩, [.takum .lin .w16]⟩,
  ⟨.takum .lin .w32, ⟨.lin, .w32, "arcosh"⟩, [.takum .lin .w32]⟩,
  ⟨.takum .lin .w64, ⟨.lin, .w64, "arcosh"⟩, [.takum .lin .w64]⟩,
  ⟨.takum .log .w8, ⟨.log, .w8, "arcoth"⟩, [.takum .log .w8]⟩,
  ⟨.takum .log .w16, ⟨.log, .w16, "arcoth"⟩, [.takum .log .w16]⟩,
  ⟨.takum .log .w32, ⟨.log, .w32, "arcoth"⟩, [.takum .log .w32]⟩,
  ⟨.takum .log .w64, ⟨.log, .w64, "arcoth"⟩, [.takum .log .w64]⟩,
  ⟨.takum .lin .w8, ⟨.lin, .w8, "arcoth"⟩, [.takum .lin .w8]⟩,
  ⟨.takum .lin .w16, ⟨.lin, .w16, "arcoth"⟩, [.takum .lin .w16]⟩,
  ⟨.takum .lin .w32, ⟨.lin, .w32, "arcoth"⟩, [.takum .lin .w32]⟩,
  ⟨.takum .lin .w64, ⟨.lin, .w64, "arcoth"⟩, [.takum .lin .w64]⟩,
  ⟨.takum .log .w8, ⟨.log, .w8, "arcsch"⟩, [.takum .log .w8]⟩,
  ⟨.takum .log .w16, ⟨.log, .w16, "arcsch"⟩, [.takum .log .w16]⟩,
  ⟨.takum .log .w32, ⟨.log, .w32, "arcsch"⟩, [.takum .log .w32]⟩,
  ⟨.takum .log .w64, ⟨.log, .w64, "arcsch"⟩, [.takum .log .w64]⟩,
  ⟨.takum .lin .w8, ⟨.lin, .w8, "arcsch"⟩, [.takum .lin .w8]⟩,
  ⟨.takum .lin .w16, ⟨.lin, .w16, "arcsch"⟩, [.takum .lin .w16]⟩,
  ⟨.takum .lin .w32, ⟨.lin, .w32, "arcsch"⟩, [.takum .lin .w32]⟩,
  ⟨.takum .lin .w64, ⟨.lin, .w64, "arcsch"⟩, [.takum .lin .w64]⟩,
  ⟨.takum .log .w8, ⟨.log, .w8, "arcsec"⟩, [.takum .log .w8]⟩,
  ⟨.takum .log .w16, ⟨.log, .w16, "arcsec"⟩, [.takum .log .w16]⟩,
  ⟨.takum .log .w32, ⟨.log, .w32, "arcsec"⟩, [.takum .log .w32]⟩,
  ⟨.takum .log .w64, ⟨.log, .w64, "arcsec"⟩, [.takum .log .w64]⟩,
  ⟨.takum .lin .w8, ⟨.lin, .w8, "arcsec"⟩, [.takum .lin .w8]⟩,
  ⟨.takum .lin .w16, ⟨.lin, .w16, "arcsec"⟩, [.takum .lin .w16]⟩,
  ⟨.takum .lin .w32, ⟨.lin, .w32, "arcsec"⟩, [.takum .lin .w32]⟩,
  ⟨.takum .lin .w64, ⟨.lin, .w64, "arcsec"⟩, [.takum .lin .w64]⟩,
  ⟨.takum .log .w8, ⟨.log, .w8, "arcsec_over_pi"⟩, [.takum .log .w8]⟩,
  ⟨.takum .log .w16, ⟨.log, .w16, "arcsec_over_pi"⟩, [.takum .log .w16]⟩,
  ⟨.takum .log .w32, ⟨.log, .w32, "arcsec_over_pi"⟩, [.takum .log .w32]⟩,
  ⟨.takum .log .w64, ⟨.log, .w64, "arcsec_over_pi"⟩, [.takum .log .w64]⟩,
  ⟨.takum .lin .w8, ⟨.lin, .w8, "arcsec_over_pi"⟩, [.takum .lin .w8]⟩,
  ⟨.takum .lin .w16, ⟨.lin, .w16, "arcsec_over_pi"⟩, [.takum .lin .w16]⟩,
  ⟨.takum .lin .w32, ⟨.lin, .w32, "arcsec_over_pi"⟩, [.takum .lin .w32]⟩,
  ⟨.takum .lin .w64, ⟨.lin, .w64, "arcsec_over_pi"⟩, [.takum .lin .w64]⟩,
  ⟨.takum .log .w8, ⟨.log, .w8, "arcsin"⟩, [.takum .log .w8]⟩,
  ⟨.takum .log .w16, ⟨.log, .w16, "arcsin"⟩, [.takum .log .w16]⟩,
  ⟨.takum .log .w32, ⟨.log, .w32, "arcsin"⟩, [.takum .log .w32]⟩,
  ⟨.takum .log .w64, ⟨.log, .w64, "arcsin"⟩, [.takum .log .w64]⟩,
  ⟨.takum .lin .w8, ⟨.lin, .w8, "arcsin"⟩, [.takum .lin .w8]⟩,
  ⟨.takum .lin .w16, ⟨.lin, .w16, "arcsin"⟩, [.takum .lin .w16]⟩,
  ⟨.takum .lin .w32, ⟨.lin, .w32, "arcsin"⟩, [.takum .lin .w32]⟩,
  ⟨.takum .lin .w64, ⟨.lin, .w64, "arcsin"⟩, [.takum .lin .w64]⟩,
  ⟨.takum .log .w8, ⟨.log, .w8, "arcsin_over_pi"⟩, [.takum .log .w8]⟩,
  ⟨.takum .log .w16, ⟨.log, .w16, "arcsin_over_pi"⟩, [.takum .log .w16]⟩,
  ⟨.takum .log .w32, ⟨.log, .w32, "arcsin_over_pi"⟩, [.takum .log .w32]⟩,
  ⟨.takum .log .w64, ⟨.log, .w64, "arcsin_over_pi"⟩, [.takum .log .w64]⟩,
  ⟨.takum .lin .w8, ⟨.lin, .w8, "arcsin_over_pi"⟩, [.takum .lin .w8]⟩,
  ⟨.takum .lin .w16, ⟨.lin, .w16, "arcsin_over_pi"⟩, [.takum .lin .w16]⟩,
  ⟨.takum .lin .w32, ⟨.lin, .w32, "arcsin_over_pi"⟩, [.takum .lin .w32]⟩,
  ⟨.takum .lin .w64, ⟨.lin, .w64, "arcsin_over_pi"⟩, [.takum .lin .w64]⟩,
  ⟨.takum .log .w8, ⟨.log, .w8, "arctan2"⟩, [.takum .log .w8, .takum .log .w8]⟩,
  ⟨.takum .log .w16, ⟨.log, .w16, "arctan2"⟩, [.takum .log .w16, .takum .log .w16]⟩,
  ⟨.takum .log .w32, ⟨.log, .w32, "arctan2"⟩, [.takum .log .w32, .takum .log .w32]⟩,
  ⟨.takum .log .w64, ⟨.log, .w64, "arctan2"⟩, [.takum .log .w64, .takum .log .w64]⟩,
  ⟨.takum .lin .w8, ⟨.lin, .w8, "arctan2"⟩, [.takum .lin .w8, .takum .lin .w8]⟩,
  ⟨.takum .lin .w16, ⟨.lin, .w16, "arctan2"⟩, [.takum .lin .w16, .takum .lin .w16]⟩,
  ⟨.takum .lin .w32, ⟨.lin, .w32, "arctan2"⟩, [.takum .lin .w32, .takum .lin .w32]⟩,
  ⟨.takum .lin .w64, ⟨.lin, .w64, "arctan2"⟩, [.takum .lin .w64, .takum .lin .w64]⟩,
  ⟨.takum .log .w8, ⟨.log, .w8, "arctan2_over_pi"⟩, [.takum .log .w8, .takum .log .w8]⟩,
  ⟨.takum .log .w16, ⟨.log, .w16, "arctan2_over_pi"⟩, [.takum .log .w16, .takum .log .w16]⟩,
  ⟨.takum .log .w32, ⟨.log, .w32, "arctan2_over_pi"⟩, [.takum .log .w32, .takum .log .w32]⟩,
  ⟨.takum .log .w64, ⟨.log, .w64, "arctan2_over_pi"⟩, [.takum .log .w64, .takum .log .w64]⟩,
  ⟨.takum .lin .w8, ⟨.lin, .w8, "arctan2_over_pi"⟩, [.takum .lin .w8, .takum .lin .w8]⟩,
  ⟨.takum .lin .w16, ⟨.lin, .w16, "arctan2_over_pi"⟩, [.takum .lin .w16, .takum .lin .w16]⟩,
  ⟨.takum .lin .w32, ⟨.lin, .w32, "arctan2_over_pi"⟩, [.takum .lin .w32, .takum .lin .w32]⟩,
  ⟨.takum .lin .w64, ⟨.lin, .w64, "arctan2_over_pi"⟩, [.takum .lin .w64, .takum .lin .w64]⟩,
  ⟨.takum .log .w8, ⟨.log, .w8, "arctan"⟩, [.takum .log .w8]⟩,
  ⟨.takum .log .w16, ⟨.log, .w16, "arctan"⟩, [.takum .log .w16]⟩,
  ⟨.takum .log .w32, ⟨.log, .w32, "arctan"⟩, [.takum .log .w32]⟩,
  ⟨.takum .log .w64, ⟨.log, .w64, "arctan"⟩, [.takum .log .w64]⟩,
  ⟨.takum .lin .w8, ⟨.lin, .w8, "arctan"⟩, [.takum .lin .w8]⟩,
  ⟨.takum .lin .w16, ⟨.lin, .w16, "arctan"⟩, [.takum .lin .w16]⟩,
  ⟨.takum .lin .w32, ⟨.lin, .w32, "arctan"⟩, [.takum .lin .w32]⟩,
  ⟨.takum .lin .w64, ⟨.lin, .w64, "arctan"⟩, [.takum .lin .w64]⟩,
  ⟨.takum .log .w8, ⟨.log, .w8, "arctan_over_pi"⟩, [.takum .log .w8]⟩,
  ⟨.takum .log .w16, ⟨.log, .w16, "arctan_over_pi"⟩, [.takum .log .w16]⟩,
  ⟨.takum .log .w32, ⟨.log, .w32, "arctan_over_pi"⟩, [.takum .log .w32]⟩,
  ⟨.takum .log .w64, ⟨.log, .w64, "arctan_over_pi"⟩, [.takum .log .w64]⟩,
  ⟨.takum .lin .w8, ⟨.lin, .w8, "arctan_over_pi"⟩, [.takum .lin .w8]⟩,
  ⟨.takum .lin .w16, ⟨.lin, .w16, "arctan_over_pi"⟩, [.takum .lin .w16]⟩,
  ⟨.takum .lin .w32, ⟨.lin, .w32, "arctan_over_pi"⟩, [.takum .lin .w32]⟩,
  ⟨.takum .lin .w64, ⟨.lin, .w64, "arctan_over_pi"⟩, [.takum .lin .w64]⟩,
  ⟨.takum .log .w8, ⟨.log, .w8, "arsech"⟩, [.takum .log .w8]⟩,
  ⟨.takum .log .w16, ⟨.log, .w16, "arsech"⟩, [.takum .log .w16]⟩,
  ⟨.takum .log .w32, ⟨.log, .w32, "arsech"⟩, [.takum .log .w32]⟩,
  ⟨.takum .log .w64, ⟨.log, .w64, "arsech"⟩, [.takum .log .w64]⟩,
  ⟨.takum .lin .w8, ⟨.lin, .w8, "arsech"⟩, [.takum .lin .w8]⟩,
  ⟨.takum .lin .w16, ⟨.lin, .w16, "arsech"⟩, [.takum .lin .w16]⟩,
  ⟨.takum .lin .w32, ⟨.lin, .w32, "arsech"⟩, [.takum .lin .w32]⟩,
  ⟨.takum .lin .w64, ⟨.lin, .w64, "arsech"⟩, [.takum .lin .w64]⟩,
  ⟨.takum .log .w8, ⟨.log, .w8, "arsinh"⟩, [.takum .log .w8]⟩,
  ⟨.takum .log .w16, ⟨.log, .w16, "arsinh"⟩, [.takum .log .w16]⟩,
  ⟨.takum .log .w32, ⟨.log, .w32, "arsinh"⟩, [.takum .log .w32]⟩,
  ⟨.takum .log .w64, ⟨.log, .w64, "arsinh"⟩, [.takum .log .w64]⟩,
  ⟨.takum .lin .w8, ⟨.lin, .w8, "arsinh"⟩, [.takum .lin .w8]⟩,
  ⟨.takum .lin .w16, ⟨.lin, .w16, "arsinh"⟩, [.takum .lin .w16]⟩,
  ⟨.takum .lin .w32, ⟨.lin, .w32, "arsinh"⟩, [.takum .lin .w32]⟩,
  ⟨.takum .lin .w64, ⟨.lin, .w64, "arsinh"⟩, [.takum .lin .w64]⟩,
  ⟨.takum .log .w8, ⟨.log, .w8, "artanh"⟩, [.takum .log .w8]⟩,
  ⟨.takum .log .w16, ⟨.log, .w16, "artanh"⟩, [.takum .log .w16]⟩,
  ⟨.takum .log .w32, ⟨.log, .w32, "artanh"⟩, [.takum .log .w32]⟩,
  ⟨.takum .log .w64, ⟨.log, .w64, "artanh"⟩, [.takum .log .w64]⟩,
  ⟨.takum .lin .w8, ⟨.lin, .w8, "artanh"⟩, [.takum .lin .w8]⟩,
  ⟨.takum .lin .w16, ⟨.lin, .w16, "artanh"⟩, [.takum .lin .w16]⟩,
  ⟨.takum .lin .w32, ⟨.lin, .w32, "artanh"⟩, [.takum .lin .w32]⟩,
  ⟨.takum .lin .w64, ⟨.lin, .w64, "artanh"⟩, [.takum .lin .w64]⟩,
  ⟨.takum .log .w8, ⟨.log, .w8, "cos"⟩, [.takum .log .w8]⟩,
  ⟨.takum .log .w16, ⟨.log, .w16, "cos"⟩, [.takum .log .w16]⟩,
  ⟨.takum .log .w32, ⟨.log, .w32, "cos"⟩, [.takum .log .w32]⟩,
  ⟨.takum .log .w64, ⟨.log, .w64, "cos"⟩, [.takum .log .w64]⟩,
  ⟨.takum .lin .w8, ⟨.lin, .w8, "cos"⟩, [.takum .lin .w8]⟩,
  ⟨.takum .lin .w16, ⟨.lin, .w16, "cos"⟩, [.takum .lin .w16]⟩,
  ⟨.takum .lin .w32, ⟨.lin, .w32, "cos"⟩, [.takum .lin .w32]⟩,
  ⟨.takum .lin .w64, ⟨.lin, .w64, "cos"⟩, [.takum .lin .w64]⟩,
  ⟨.takum .log .w8, ⟨.log, .w8, "cos_pi_times"⟩, [.takum .log .w8]⟩,
  ⟨.takum .log .w16, ⟨.log, .w16, "cos_pi_times"⟩, [.takum .log .w16]⟩,
  ⟨.takum .log .w32, ⟨.log, .w32, "cos_pi_times"⟩, [.takum .log .w32]⟩,
  ⟨.takum .log .w64, ⟨.log, .w64, "cos_pi_times"⟩, [.takum .log .w64]⟩,
  ⟨.takum .lin .w8, ⟨.lin, .w8, "cos_pi_times"⟩, [.takum .lin .w8]⟩,
  ⟨.takum .lin .w16, ⟨.lin, .w16, "cos_pi_times"⟩, [.takum .lin .w16]⟩,
  ⟨.takum .lin .w32, ⟨.lin, .w32, "cos_pi_times"⟩, [.takum .lin .w32]⟩,
  ⟨.takum .lin .w64, ⟨.lin, .w64, "cos_pi_times"⟩, [.takum .lin .w64]⟩,
  ⟨.takum .log .w8, ⟨.log, .w8, "cosh"⟩, [.takum .log .w8]⟩,
  ⟨.takum .log .w16, ⟨.log, .w16, "cosh"⟩, [.takum .log .w16]⟩,
  ⟨.takum .log .w32, ⟨.log, .w32, "cosh"⟩, [.takum .log .w32]⟩,
  ⟨.takum .log .w64, ⟨.log, .w64, "cosh"⟩, [.takum .log .w64]⟩,
  ⟨.takum .lin .w8, ⟨.lin, .w8, "cosh"⟩, [.takum .lin .w8]⟩,
  ⟨.takum .lin .w16, ⟨.lin, .w16, "cosh"⟩, [.takum .lin .w16]⟩,
  ⟨.takum .lin .w32, ⟨.lin, .w32, "cosh"⟩, [.takum .lin .w32]⟩,
  ⟨.takum .lin .w64, ⟨.lin, .w64, "cosh"⟩, [.takum .lin .w64]⟩,
  ⟨.takum .log .w8, ⟨.log, .w8, "cot"⟩, [.takum .log .w8]⟩,
  ⟨.takum .log .w16, ⟨.log, .w16, "cot"⟩, [.takum .log .w16]⟩,
  ⟨.takum .log .w32, ⟨.log, .w32, "cot"⟩, [.takum .log .w32]⟩,
  ⟨.takum .log .w64, ⟨.log, .w64, "cot"⟩, [.takum .log .w64]⟩,
  ⟨.takum .lin .w8, ⟨.lin, .w8, "cot"⟩, [.takum .lin .w8]⟩,
  ⟨.takum .lin .w16, ⟨.lin, .w16, "cot"⟩, [.takum .lin .w16]⟩,
  ⟨.takum .lin .w32, ⟨.lin, .w32, "cot"⟩, [.takum .lin .w32]⟩,
  ⟨.takum .lin .w64, ⟨.lin, .w64, "cot"⟩, [.takum .lin .w64]⟩,
  ⟨.takum .log .w8, ⟨.log, .w8, "cot_pi_times"⟩, [.takum .log .w8]⟩,
  ⟨.takum .log .w16, ⟨.log, .w16, "cot_pi_times"⟩, [.takum .log .w16]⟩,
  ⟨.takum .log .w32, ⟨.log, .w32, "cot_pi_times"⟩, [.takum .log .w32]⟩,
  ⟨.takum .log .w64, ⟨.log, .w64, "cot_pi_times"⟩, [.takum .log .w64]⟩,
  ⟨.takum .lin .w8, ⟨.lin, .w8, "cot_pi_times"⟩, [.takum .lin .w8]⟩,
  ⟨.takum .lin .w16, ⟨.lin, .w16, "cot_pi_times"⟩, [.takum .lin .w16]⟩,
  ⟨.takum .lin .w32, ⟨.lin, .w32, "cot_pi_times"⟩, [.takum .lin .w32]⟩,
  ⟨.takum .lin .w64, ⟨.lin, .w64, "cot_pi_times"⟩, [.takum .lin .w64]⟩,
  ⟨.takum .log .w8, ⟨.log, .w8, "coth"⟩, [.takum .log .w8]⟩,
  ⟨.takum .log .w16, ⟨.log, .w16, "coth"⟩, [.takum .log .w16]⟩,
  ⟨.takum .log .w32, ⟨.log, .w32, "coth"⟩, [.takum .log .w32]⟩,
  ⟨.takum .log .w64, ⟨.log, .w64, "coth"⟩, [.takum .log .w64]⟩,
  ⟨.takum .lin .w8, ⟨.lin, .w8, "coth"⟩, [.takum .lin .w8]⟩,
  ⟨.takum .lin .w16, ⟨.lin, .w16, "coth"⟩, [.takum .lin .w16]⟩,
  ⟨.takum .lin .w32, ⟨.lin, .w32, "coth"⟩, [.takum .lin .w32]⟩,
  ⟨.takum .lin .w64, ⟨.lin, .w64, "coth"⟩, [.takum .lin .w64]⟩,
  ⟨.takum .log .w8, ⟨.log, .w8, "csc"⟩, [.takum .log .w8]⟩,
  ⟨.takum .log .w16, ⟨.log, .w16, "csc"⟩, [.takum .log .w16]⟩,
  ⟨.takum .log .w32, ⟨.log, .w32, "csc"⟩, [.takum .log .w32]⟩,
  ⟨.takum .log .w64, ⟨.log, .w64, "csc"⟩, [.takum .log .w64]⟩,
  ⟨.takum .lin .w8, ⟨.lin, .w8, "csc"⟩, [.takum .lin .w8]⟩,
  ⟨.takum .lin .w16, ⟨.lin, .w16, "csc"⟩, [.takum .lin .w16]⟩,
  ⟨.takum .lin .w32, ⟨.lin, .w32, "csc"⟩, [.takum .lin .w32]⟩,
  ⟨.takum .lin .w64, ⟨.lin, .w64, "csc"⟩, [.takum .lin .w64]⟩,
  ⟨.takum .log .w8, ⟨.log, .w8, "csc_pi_times"⟩, [.takum .log .w8]⟩,
  ⟨.takum .log .w16, ⟨.log, .w16, "csc_pi_times"⟩, [.takum .log .w16]⟩,
  ⟨.takum .log .w32, ⟨.log, .w32, "csc_pi_times"⟩, [.takum .log .w32]⟩,
  ⟨.takum .log .w64, ⟨.log, .w64, "csc_pi_times"⟩, [.takum .log .w64]⟩,
  ⟨.takum .lin .w8, ⟨.lin, .w8, "csc_pi_times"⟩, [.takum .lin .w8]⟩,
  ⟨.takum .lin .w16, ⟨.lin, .w16, "csc_pi_times"⟩, [.takum .lin .w16]⟩,
  ⟨.takum .lin .w32, ⟨.lin, .w32, "csc_pi_times"⟩, [.takum .lin .w32]⟩,
  ⟨.takum .lin .w64, ⟨.lin, .w64, "csc_pi_times"⟩, [.takum .lin .w64]⟩,
  ⟨.takum .log .w8, ⟨.log, .w8, "csch"⟩, [.takum .log .w8]⟩,
  ⟨.takum .log .w16, ⟨.log, .w16, "csch"⟩, [.takum .log .w16]⟩,
  ⟨.takum .log .w32, ⟨.log, .w32, "csch"⟩, [.takum .log .w32]⟩,
  ⟨.takum .log .w64, ⟨.log, .w64, "csch"⟩, [.takum .log .w64]⟩,
  ⟨.takum .lin .w8, ⟨.lin, .w8, "csch"⟩, [.takum .lin .w8]⟩,
  ⟨.takum .lin .w16, ⟨.lin, .w16, "csch"⟩, [.takum .lin .w16]⟩,
  ⟨.takum .lin .w32, ⟨.lin, .w32, "csch"⟩, [.takum .lin .w32]⟩,
  ⟨.takum .lin .w64, ⟨.lin, .w64, "csch"⟩, [.takum .lin .w64]⟩,
  ⟨.takum .log .w8, ⟨.log, .w8, "division"⟩, [.takum .log .w8, .takum .log .w8]⟩,
  ⟨.takum .log .w16, ⟨.log, .w16, "division"⟩, [.takum .log .w16, .takum .log .w16]⟩,
  ⟨.takum .log .w32, ⟨.log, .w32, "division"⟩, [.takum .log .w32, .takum .log .w32]⟩,
  ⟨.takum .log .w64, ⟨.log, .w64, "division"⟩, [.takum .log .w64, .takum .log .w64]⟩,
  ⟨.takum .lin .w8, ⟨.lin, .w8, "division"⟩, [.takum .lin .w8, .takum .lin .w8]⟩,
  ⟨.takum .lin .w16, ⟨.lin, .w16, "division"⟩, [.takum .lin .w16, .takum .lin .w16]⟩,
  ⟨.takum .lin .w32, ⟨.lin, .w32, "division"⟩, [.takum .lin .w32, .takum .lin .w32]⟩,
  ⟨.takum .lin .w64, ⟨.lin, .w64, "division"⟩, [.takum .lin .w64, .takum .lin .w64]⟩,
  ⟨.takum .log .w8, ⟨.log, .w8, "exp"⟩, [.takum .log .w8]⟩,
  ⟨.takum .log .w16, ⟨.log, .w16, "exp"⟩, [.takum .log .w16]⟩,
  ⟨.takum .log .w32, ⟨.log, .w32, "exp"⟩, [.takum .log .w32]⟩,
  ⟨.takum .log .w64, ⟨.log, .w64, "exp"⟩, [.takum .log .w64]⟩,
  ⟨.takum .lin .w8, ⟨.lin, .w8, "exp"⟩, [.takum .lin .w8]⟩,
  ⟨.takum .lin .w16, ⟨.lin, .w16, "exp"⟩, [.takum .lin .w16]⟩,
  ⟨.takum .lin .w32, ⟨.lin, .w32, "exp"⟩, [.takum .lin .w32]⟩,
  ⟨.takum .lin .w64, ⟨.lin, .w64, "exp"⟩, [.takum .lin .w64]⟩,
  ⟨.takum .log .w8, ⟨.log, .w8, "exp_minus_1"⟩, [.takum .log .w8]⟩,
  ⟨.takum .log .w16, ⟨.log, .w16, "exp_minus_1"⟩, [.takum .log .w16]⟩,
  ⟨.takum .log .w32, ⟨.log, .w32, "exp_minus_1"⟩, [.takum .log .w32]⟩,
  ⟨.takum .log .w64, ⟨.log, .w64, "exp_minus_1"⟩, [.takum .log .w64]⟩,
  ⟨.takum .lin .w8, ⟨.lin, .w8, "exp_minus_1"⟩, [.takum .lin .w8]⟩,
  ⟨.takum .lin .w16, ⟨.lin, .w16, "exp_minus_1"⟩, [.takum .lin .w16]⟩,
  ⟨.takum .lin .w32, ⟨.lin, .w32, "exp_minus_1"⟩, [.takum .lin .w32]⟩,
  ⟨.takum .lin .w64, ⟨.lin, .w64, "exp_minus_1"⟩, [.takum .lin .w64]⟩,
  ⟨.takum .log .w8, ⟨.log, .w8, "from_extended_float"⟩, [.longDouble]⟩,
  ⟨.takum .log .w16, ⟨.log, .w16, "from_extended_float"⟩, [.longDouble]⟩,
  ⟨.takum .log .w32, ⟨.log, .w32, "from_extended_float"⟩, [.longDouble]⟩,
  ⟨.takum .log .w64, ⟨.log, .w64, "from_extended_float"⟩, [.longDouble]⟩,
  ⟨.takum .lin .w8, ⟨.lin, .w8, "from_extended_float"⟩, [.longDouble]⟩,
  ⟨.takum .lin .w16, ⟨.lin, .w16, "from_extended_float"⟩, [.longDouble]⟩,
  ⟨.takum .lin .w32, ⟨.lin, .w32, "from_extended_float"⟩, [.longDouble]⟩,
  ⟨.takum .lin .w64, ⟨.lin, .w64, "from_extended_float"⟩, [.longDouble]⟩,
  ⟨.takum .log .w8, ⟨.log, .w8, "from_float32"⟩, [.float]⟩,
  ⟨.takum .log .w16, ⟨.log, .w16, "from_float32"⟩, [.float]⟩,
  ⟨.takum .log .w32, ⟨.log, .w32, "from_float32"⟩, [.float]⟩,
  ⟨.takum .log .w64, ⟨.log, .w64, "from_float32"⟩, [.float]⟩,
  ⟨.takum .lin .w8, ⟨.lin, .w8, "from_float32"⟩, [.float]⟩,
  ⟨.takum .lin .w16, ⟨.lin, .w16, "from_float32"⟩, [.float]⟩,
  ⟨.takum .lin .w32, ⟨.lin, .w32, "from_float32"⟩, [.float]⟩,
  ⟨.takum .lin .w64, ⟨.lin, .w64, "from_float32"⟩, [.float]⟩,
  ⟨.takum .log .w8, ⟨.log, .w8, "from_float64"⟩, [.double]⟩,
  ⟨.takum .log .w16, ⟨.log, .w16, "from_float64"⟩, [.double]⟩,
  ⟨.takum .log .w32, ⟨.log, .w32, "from_float64"⟩, [.double]⟩,
  ⟨.takum .log .w64, ⟨.log, .w64, "from_float64"⟩, [.double]⟩,
  ⟨.takum .lin .w8, ⟨.lin, .w8, "from_float64"⟩, [.double]⟩,
  ⟨.takum .lin .w16, ⟨.lin, .w16, "from_float64"⟩, [.double]⟩,
  ⟨.takum .lin .w32, ⟨.lin, .w32, "from_float64"⟩, [.double]⟩,
  ⟨.takum .lin .w64, ⟨.lin, .w64, "from_float64"⟩, [.double]⟩,
  ⟨.takum .log .w16, ⟨.log, .w16, "from_takum8"⟩, [.takum .log .w8]⟩,
  ⟨.takum .log .w32, ⟨.log, .w32, "from_takum8"⟩, [.takum .log .w8]⟩,
  ⟨.takum .log .w64, ⟨.log, .w64, "from_takum8"⟩, [.takum .log .w8]⟩,
  ⟨.takum .lin .w8, ⟨.lin, .w8, "from_takum8"⟩, [.takum .log .w8]⟩,
  ⟨.takum .lin .w16, ⟨.lin, .w16, "from_takum8"⟩, [.takum .log .w8]⟩,
  ⟨.takum .lin .w32, ⟨.lin, .w32, "from_takum8"⟩, [.takum .log .w8]⟩,
  ⟨.takum .lin .w64, ⟨.lin, .w64, "from_takum8"⟩, [.takum .log .w8]⟩,
  ⟨.takum .log .w8, ⟨.log, .w8, "from_takum16"⟩, [.takum .log .w16]⟩,
  ⟨.takum .log .w32, ⟨.log, .w32, "from_takum16"⟩, [.takum .log .w16]⟩,
  ⟨.takum .log .w64, ⟨.log, .w64, "from_takum16"⟩, [.takum .log .w16]⟩,
  ⟨.takum .lin .w8, ⟨.lin, .w8, "from_takum16"⟩, [.takum .log .w16]⟩,
  ⟨.takum .lin .w16, ⟨.lin, .w16, "from_takum16"⟩, [.takum .log .w16]⟩,
  ⟨.takum .lin .w32, ⟨.lin, .w32, "from_takum16"⟩, [.takum .log .w16]⟩,
  ⟨.takum .lin .w64, ⟨.lin, .w64, "from_takum16"⟩, [.takum .log .w16]⟩,
  ⟨.takum .log .w8, ⟨.log, .w8, "from_takum32"⟩, [.takum .log .w32]⟩,
  ⟨.takum .log .w16, ⟨.log, .w16, "from_takum32"⟩, [.takum .log .w32]⟩,
  ⟨.takum .log .w64, ⟨.log, .w64, "from_takum32"⟩, [.takum .log .w32]⟩,
  ⟨.takum .lin .w8, ⟨.lin, .w8, "from_takum32"⟩, [.takum .log .w32]⟩,
  ⟨.takum .lin .w16, ⟨.lin, .w16, "from_takum32"⟩, [.takum .log .w32]⟩,
  ⟨.takum .lin .w32, ⟨.lin, .w32, "from_takum32"⟩, [.takum .log .w32]⟩,
  ⟨.takum .lin .w64, ⟨.lin, .w64, "from_takum32"⟩, [.takum .log .w32]⟩,
  ⟨.takum .log .w8, ⟨.log, .w8, "from_takum64"⟩, [.takum .log .w64]⟩,
  ⟨.takum .log .w16, ⟨.log, .w16, "from_takum64"⟩, [.takum .log .w64]⟩,
  ⟨.takum .log .w32, ⟨.log, .w32, "from_takum64"⟩, [.takum .log .w64]⟩,
  ⟨.takum .lin .w8, ⟨.lin, .w8, "from_takum64"⟩, [.takum .log .w64]⟩,
  ⟨.takum .lin .w16, ⟨.lin, .w16, "from_takum64"⟩, [.takum .log .w64]⟩,
  ⟨.takum .lin .w32, ⟨.lin, .w32, "from_takum64"⟩, [.takum .log .w64]⟩,
  ⟨.takum .lin .w64, ⟨.lin, .w64, "from_takum64"⟩, [.takum .log .w64]⟩,
  ⟨.takum .log .w8, ⟨.log, .w8, "from_takum_linear8"⟩, [.takum .lin .w8]⟩,
  ⟨.takum .log .w16, ⟨.log, .w16, "from_takum_linear8"⟩, [.takum .lin .w8]⟩,
  ⟨.takum .log .w32, ⟨.log, .w32, "from_takum_linear8"⟩, [.takum .lin .w8]⟩,
  ⟨.takum .log .w64, ⟨.log, .w64, "from_takum_linear8"⟩, [.takum .lin .w8]⟩,
  ⟨.takum .lin .w16, ⟨.lin, .w16, "from_takum_linear8"⟩, [.takum .lin .w8]⟩,
  ⟨.takum .lin .w32, ⟨.lin, .w32, "from_takum_linear8"⟩, [.takum .lin .w8]⟩,
  ⟨.takum .lin .w64, ⟨.lin, .w64, "from_takum_linear8"⟩, [.takum .lin .w8]⟩,
  ⟨.takum .log .w8, ⟨.log, .w8, "from_takum_linear16"⟩, [.takum .lin .w16]⟩,
  ⟨.takum .log .w16, ⟨.log, .w16, "from_takum_linear16"⟩, [.takum .lin .w16]⟩,
  ⟨.takum .log .w32, ⟨.log, .w32, "from_takum_linear16"⟩, [.takum .lin .w16]⟩,
  ⟨.takum .log .w64, ⟨.log, .w64, "from_takum_linear16"⟩, [.takum .lin .w16]⟩,
  ⟨.takum .lin .w8, ⟨.lin, .w8, "from_takum_linear16"⟩, [.takum .lin .w16]⟩,
  ⟨.takum .lin .w32, ⟨.lin, .w32, "from_takum_linear16"⟩, [.takum .lin .w16]⟩,
  ⟨.takum .lin .w64, ⟨.lin, .w64, "from_takum_linear16"⟩, [.takum .lin .w16]⟩,
  ⟨.takum .log .w8, ⟨.log, .w8, "from_takum_linear32"⟩, [.takum .lin .w32]⟩,
  ⟨.takum .log .w16, ⟨.log, .w16, "from_takum_linear32"⟩, [.takum .lin .w32]⟩,
  ⟨.takum .log .w32, ⟨.log, .w32, "from_takum_linear32"⟩, [.takum .lin .w32]⟩,
  ⟨.takum .log .w64, ⟨.log, .w64, "from_takum_linear32"⟩, [.takum .lin .w32]⟩,
  ⟨.takum .lin .w8, ⟨.lin, .w8, "from_takum_linear32"⟩, [.takum .lin .w32]⟩,
  ⟨.takum .lin .w16, ⟨.lin, .w16, "from_takum_linear32"⟩, [.takum .lin .w32]⟩,
  ⟨.takum .lin .w64, ⟨.lin, .w64, "from_takum_linear32"⟩, [.takum .lin .w32]⟩,
  ⟨.takum .log .w8, ⟨.log, .w8, "from_takum_linear64"⟩, [.takum .lin .w64]⟩,
  ⟨.takum .log .w16, ⟨.log, .w16, "from_takum_linear64"⟩, [.takum .lin .w64]⟩,
  ⟨.takum .log .w32, ⟨.log, .w32, "from_takum_linear64"⟩, [.takum .lin .w64]⟩,
  ⟨.takum .log .w64, ⟨.log, .w64, "from_takum_linear64"⟩, [.takum .lin .w64]⟩,
  ⟨.takum .lin .w8, ⟨.lin, .w8, "from_takum_linear64"⟩, [.takum .lin .w64]⟩,
  ⟨.takum .lin .w16, ⟨.lin, .w16, "from_takum_linear64"⟩, [.takum .lin .w64]⟩,
  ⟨.takum .lin .w32, ⟨.lin, .w32, "from_takum_linear64"⟩, [.takum .lin .w64]⟩,
  ⟨.takum .log .w8, ⟨.log, .w8, "hypotenuse"⟩, [.takum .log .w8, .takum .log .w8]⟩,
  ⟨.takum .log .w16, ⟨.log, .w16, "hypotenuse"⟩, [.takum .log .w16, .takum .log .w16]⟩,
  ⟨.takum .log .w32, ⟨.log, .w32, "hypotenuse"⟩, [.takum .log .w32, .takum .log .w32]⟩,
  ⟨.takum .log .w64, ⟨.log, .w64, "hypotenuse"⟩, [.takum .log .w64, .takum .log .w64]⟩,
  ⟨.takum .lin .w8, ⟨.lin, .w8, "hypotenuse"⟩, [.takum .lin .w8, .takum .lin .w8]⟩,
  ⟨.takum .lin .w16, ⟨.lin, .w16, "hypotenuse"⟩, [.takum .lin .w16, .takum .lin .w16]⟩,
  ⟨.takum .lin .w32, ⟨.lin, .w32, "hypotenuse"⟩, [.takum .lin .w32, .takum .lin .w32]⟩,
  ⟨.takum .lin .w64, ⟨.lin, .w64, "hypotenuse"⟩, [.takum .lin .w64, .takum .lin .w64]⟩,
  ⟨.takum .log .w8, ⟨.log, .w8, "integer_power"⟩, [.takum .log .w8, .int64]⟩,
  ⟨.takum .log .w16, ⟨.log, .w16, "integer_power"⟩, [.takum .log .w16, .int64]⟩,
  ⟨.takum .log .w32, ⟨.log, .w32, "integer_power"⟩, [.takum .log .w32, .int64]⟩,
  ⟨.takum .log .w64, ⟨.log, .w64, "integer_power"⟩, [.takum .log .w64, .int64]⟩,
  ⟨.takum .lin .w8, ⟨.lin, .w8, "integer_power"⟩, [.takum .lin .w8, .int64]⟩,
  ⟨.takum .lin .w16, ⟨.lin, .w16, "integer_power"⟩, [.takum .lin .w16, .int64]⟩,
  ⟨.takum .lin .w32, ⟨.lin, .w32, "integer_power"⟩, [.takum .lin .w32, .int64]⟩,
  ⟨.takum .lin .w64, ⟨.lin, .w64, "integer_power"⟩, [.takum .lin .w64, .int64]⟩,
  ⟨.takum .log .w8, ⟨.log, .w8, "root"⟩, [.takum .log .w8, .int64]⟩,
  ⟨.takum .log .w16, ⟨.log, .w16, "root"⟩, [.takum .log .w16, .int64]⟩,
  ⟨.takum .log .w32, ⟨.log, .w32, "root"⟩, [.takum .log .w32, .int64]⟩,
  ⟨.takum .log .w64, ⟨.log, .w64, "root"⟩, [.takum .log .w64, .int64]⟩,
  ⟨.takum .lin .w8, ⟨.lin, .w8, "root"⟩, [.takum .lin .w8, .int64]⟩,
  ⟨.takum .lin .w16, ⟨.lin, .w16, "root"⟩, [.takum .lin .w16, .int64]⟩,
  ⟨.takum .lin .w32, ⟨.lin, .w32, "root"⟩, [.takum .lin .w32, .int64]⟩,
  ⟨.takum .lin .w64, ⟨.lin, .w64, "root"⟩, [.takum .lin .w64, .int64]⟩,
  ⟨.takum .log .w8, ⟨.log, .w8, "inversion"⟩, [.takum .log .w8]⟩,
  ⟨.takum .log .w16, ⟨.log, .w16, "inversion"⟩, [.takum .log .w16]⟩,
  ⟨.takum .log .w32, ⟨.log, .w32, "inversion"⟩, [.takum .log .w32]⟩,
  ⟨.takum .log .w64, ⟨.log, .w64, "inversion"⟩, [.takum .log .w64]⟩,
  ⟨.takum .lin .w8, ⟨.lin, .w8, "inversion"⟩, [.takum .lin .w8]⟩,
  ⟨.takum .lin .w16, ⟨.lin, .w16, "inversion"⟩, [.takum .lin .w16]⟩,
  ⟨.takum .lin .w32, ⟨.lin, .w32, "inversion"⟩, [.takum .lin .w32]⟩,
  ⟨.takum .lin .w64, ⟨.lin, .w64, "inversion"⟩, [.takum .lin .w64]⟩,
  ⟨.takum .log .w8, ⟨.log, .w8, "lb"⟩, [.takum .log .w8]⟩,
  ⟨.takum .log .w16, ⟨.log, .w16, "lb"⟩, [.takum .log .w16]⟩,
  ⟨.takum .log .w32, ⟨.log, .w32, "lb"⟩, [.takum .log .w32]⟩,
  ⟨.takum .log .w64, ⟨.log, .w64, "lb"⟩, [.takum .log .w64]⟩,
  ⟨.takum .lin .w8, ⟨.lin, .w8, "lb"⟩, [.takum .lin .w8]⟩,
  ⟨.takum .lin .w16, ⟨.lin, .w16, "lb"⟩, [.takum .lin .w16]⟩,
  ⟨.takum .lin .w32, ⟨.lin, .w32, "lb"⟩, [.takum .lin .w32]⟩,
  ⟨.takum .lin .w64, ⟨.lin, .w64, "lb"⟩, [.takum .lin .w64]⟩,
  ⟨.takum .log .w8, ⟨.log, .w8, "lb_1_plus"⟩, [.takum .log .w8]⟩,
  ⟨.takum .log .w16, ⟨.log, .w16, "lb_1_plus"⟩, [.takum .log .w16]⟩,
  ⟨.takum .log .w32, ⟨.log, .w32, "lb_1_plus"⟩, [.takum .log .w32]⟩,
  ⟨.takum .log .w64, ⟨.log, .w64, "lb_1_plus"⟩, [.takum .log .w64]⟩,
  ⟨.takum .lin .w8, ⟨.lin, .w8, "lb_1_plus"⟩, [.takum .lin .w8]⟩,
  ⟨.takum .lin .w16, ⟨.lin, .w16, "lb_1_plus"⟩, [.takum .lin .w16]⟩,
  ⟨.takum .lin .w32, ⟨.lin, .w32, "lb_1_plus"⟩, [.takum .lin .w32]⟩,
  ⟨.takum .lin .w64, ⟨.lin, .w64, "lb_1_plus"⟩, [.takum .lin .w64]⟩,
  ⟨.takum .log .w8, ⟨.log, .w8, "lg"⟩, [.takum .log .w8]⟩,
  ⟨.takum .log .w16, ⟨.log, .w16, "lg"⟩, [.takum .log .w16]⟩,
  ⟨.takum .log .w32, ⟨.log, .w32, "lg"⟩, [.takum .log .w32]⟩,
  ⟨.takum .log .w64, ⟨.log, .w64, "lg"⟩, [.takum .log .w64]⟩,
  ⟨.takum .lin .w8, ⟨.lin, .w8, "lg"⟩, [.takum .lin .w8]⟩,
  ⟨.takum .lin .w16, ⟨.lin, .w16, "lg"⟩, [.takum .lin .w16]⟩,
  ⟨.takum .lin .w32, ⟨.lin, .w32, "lg"⟩, [.takum .lin .w32]⟩,
  ⟨.takum .lin .w64, ⟨.lin, .w64, "lg"⟩, [.takum .lin .w64]⟩,
  ⟨.takum .log .w8, ⟨.log, .w8, "lg_1_plus"⟩, [.takum .log .w8]⟩,
  ⟨.takum .log .w16, ⟨.log, .w16, "lg_1_plus"⟩, [.takum .log .w16]⟩,
  ⟨.takum .log .w32, ⟨.log, .w32, "lg_1_plus"⟩, [.takum .log .w32]⟩,
  ⟨.takum .log .w64, ⟨.log, .w64, "lg_1_plus"⟩, [.takum .log .w64]⟩,
  ⟨.takum .lin .w8, ⟨.lin, .w8, "lg_1_plus"⟩, [.takum .lin .w8]⟩,
  ⟨.takum .lin .w16, ⟨.lin, .w16, "lg_1_plus"⟩, [.takum .lin .w16]⟩,
  ⟨.takum .lin .w32, ⟨.lin, .w32, "lg_1_plus"⟩, [.takum .lin .w32]⟩,
  ⟨.takum .lin .w64, ⟨.lin, .w64, "lg_1_plus"⟩, [.takum .lin .w64]⟩,
  ⟨.takum .log .w8, ⟨.log, .w8, "ln"⟩, [.takum .log .w8]⟩,
  ⟨.takum .log .w16, ⟨.log, .w16, "ln"⟩, [.takum .log .w16]⟩,
  ⟨.takum .log .w32, ⟨.log, .w32, "ln"⟩, [.takum .log .w32]⟩,
  ⟨.takum .log .w64, ⟨.log, .w64, "ln"⟩, [.takum .log .w64]⟩,
  ⟨.takum .lin .w8, ⟨.lin, .w8, "ln"⟩, [.takum .lin .w8]⟩,
  ⟨.takum .lin .w16, ⟨.lin, .w16, "ln"⟩, [.takum .lin .w16]⟩,
  ⟨.takum .lin .w32, ⟨.lin, .w32, "ln"⟩, [.takum .lin .w32]⟩,
  ⟨.takum .lin .w64, ⟨.lin, .w64, "ln"⟩, [.takum .lin .w64]⟩,
  ⟨.takum .log .w8, ⟨.log, .w8, "ln_1_plus"⟩, [.takum .log .w8]⟩,
  ⟨.takum .log .w16, ⟨.log, .w16, "ln_1_plus"⟩, [.takum .log .w16]⟩,
  ⟨.takum .log .w32, ⟨.log, .w32, "ln_1_plus"⟩, [.takum .log .w32]⟩,
  ⟨.takum .log .w64, ⟨.log, .w64, "ln_1_plus"⟩, [.takum .log .w64]⟩,
  ⟨.takum .lin .w8, ⟨.lin, .w8, "ln_1_plus"⟩, [.takum .lin .w8]⟩,
  ⟨.takum .lin .w16, ⟨.lin, .w16, "ln_1_plus"⟩, [.takum .lin .w16]⟩,
  ⟨.takum .lin .w32, ⟨.lin, .w32, "ln_1_plus"⟩, [.takum .lin .w32]⟩,
  ⟨.takum .lin .w64, ⟨.lin, .w64, "ln_1_plus"⟩, [.takum .lin .w64]⟩,
  ⟨.takum .log .w8, ⟨.log, .w8, "multiplication"⟩, [.takum .log .w8, .takum .log .w8]⟩,
  ⟨.takum .log .w16, ⟨.log, .w16, "multiplication"⟩, [.takum .log .w16, .takum .log .w16]⟩,
  ⟨.takum .log .w32, ⟨.log, .w32, "multiplication"⟩, [.takum .log .w32, .takum .log .w32]⟩,
  ⟨.takum .log .w64, ⟨.log, .w64, "multiplication"⟩, [.takum .log .w64, .takum .log .w64]⟩,
  ⟨.takum .lin .w8, ⟨.lin, .w8, "multiplication"⟩, [.takum .lin .w8, .takum .lin .w8]⟩,
  ⟨.takum .lin .w16, ⟨.lin, .w16, "multiplication"⟩, [.takum .lin .w16, .takum .lin .w16]⟩,
  ⟨.takum .lin .w32, ⟨.lin, .w32, "multiplication"⟩, [.takum .lin .w32, .takum .lin .w32]⟩,
  ⟨.takum .lin .w64, ⟨.lin, .w64, "multiplication"⟩, [.takum .lin .w64, .takum .lin .w64]⟩,
  ⟨.takum .log .w8, ⟨.log, .w8, "power"⟩, [.takum .log .w8, .takum .log .w8]⟩,
  ⟨.takum .log .w16, ⟨.log, .w16, "power"⟩, [.takum .log .w16, .takum .log .w16]⟩,
  ⟨.takum .log .w32, ⟨.log, .w32, "power"⟩, [.takum .log .w32, .takum .log .w32]⟩,
  ⟨.takum .log .w64, ⟨.log, .w64, "power"⟩, [.takum .log .w64, .takum .log .w64]⟩,
  ⟨.takum .lin .w8, ⟨.lin, .w8, "power"⟩, [.takum .lin .w8, .takum .lin .w8]⟩,
  ⟨.takum .lin .w16, ⟨.lin, .w16, "power"⟩, [.takum .lin .w16, .takum .lin .w16]⟩,
  ⟨.takum .lin .w32, ⟨.lin, .w32, "power"⟩, [.takum .lin .w32, .takum .lin .w32]⟩,
  ⟨.takum .lin .w64, ⟨.lin, .w64, "power"⟩, [.takum .lin .w64, .takum .lin .w64]⟩,
  ⟨.uint8, ⟨.log, .w8, "precision"⟩, [.takum .log .w8]⟩,
  ⟨.uint8, ⟨.log, .w16, "precision"⟩, [.takum .log .w16]⟩,
  ⟨.uint8, ⟨.log, .w32, "precision"⟩, [.takum .log .w32]⟩,
  ⟨.uint8, ⟨.log, .w64, "precision"⟩, [.takum .log .w64]⟩,
  ⟨.uint8, ⟨.lin, .w8, "precision"⟩, [.takum .lin .w8]⟩,
  ⟨.uint8, ⟨.lin, .w16, "precision"⟩, [.takum .lin .w16]⟩,
  ⟨.uint8, ⟨.lin, .w32, "precision"⟩, [.takum .lin .w32]⟩,
  ⟨.uint8, ⟨.lin, .w64, "precision"⟩, [.takum .lin .w64]⟩,
  ⟨.takum .log .w8, ⟨.log, .w8, "sec"⟩, [.takum .log .w8]⟩,
  ⟨.takum .log .w16, ⟨.log, .w16, "sec"⟩, [.takum .log .w16]⟩,
  ⟨.takum .log .w32, ⟨.log, .w32, "sec"⟩, [.takum .log .w32]⟩,
  ⟨.takum .log .w64, ⟨.log, .w64, "sec"⟩, [.takum .log .w64]⟩,
  ⟨.takum .lin .w8, ⟨.lin, .w8, "sec"⟩, [.takum .lin .w8]⟩,
  ⟨.takum .lin .w16, ⟨.lin, .w16, "sec"⟩, [.takum .lin .w16]⟩,
  ⟨.takum .lin .w32, ⟨.lin, .w32, "sec"⟩, [.takum .lin .w32]⟩,
  ⟨.takum .lin .w64, ⟨.lin, .w64, "sec"⟩, [.takum .lin .w64]⟩,
  ⟨.takum .log .w8, ⟨.log, .w8, "sec_pi_times"⟩, [.takum .log .w8]⟩,
  ⟨.takum .log .w16, ⟨.log, .w16, "sec_pi_times"⟩, [.takum .log .w16]⟩,
  ⟨.takum .log .w32, ⟨.log, .w32, "sec_pi_times"⟩, [.takum .log .w32]⟩,
  ⟨.takum .log .w64, ⟨.log, .w64, "sec_pi_times"⟩, [.takum .log .w64]⟩,
  ⟨.takum .lin .w8, ⟨.lin, .w8, "sec_pi_times"⟩, [.takum .lin .w8]⟩,
  ⟨.takum .lin .w16, ⟨.lin, .w16, "sec_pi_times"⟩, [.takum .lin .w16]⟩,
  ⟨.takum .lin .w32, ⟨.lin, .w32, "sec_pi_times"⟩, [.takum .lin .w32]⟩,
  ⟨.takum .lin .w64, ⟨.lin, .w64, "sec_pi_times"⟩, [.takum .lin .w64]⟩,
  ⟨.takum .log .w8, ⟨.log, .w8, "sech"⟩, [.takum .log .w8]⟩,
  ⟨.takum .log .w16, ⟨.log, .w16, "sech"⟩, [.takum .log .w16]⟩,
  ⟨.takum .log .w32, ⟨.log, .w32, "sech"⟩, [.takum .log .w32]⟩,
  ⟨.takum .log .w64, ⟨.log, .w64, "sech"⟩, [.takum .log .w64]⟩,
  ⟨.takum .lin .w8, ⟨.lin, .w8, "sech"⟩, [.takum .lin .w8]⟩,
  ⟨.takum .lin .w16, ⟨.lin, .w16, "sech"⟩, [.takum .lin .w16]⟩,
  ⟨.takum .lin .w32, ⟨.lin, .w32, "sech"⟩, [.takum .lin .w32]⟩,
  ⟨.takum .lin .w64, ⟨.lin, .w64, "sech"⟩, [.takum .lin .w64]⟩,
  ⟨.takum .log .w8, ⟨.log, .w8, "sign"⟩, [.takum .log .w8]⟩,
  ⟨.takum .log .w16, ⟨.log, .w16, "sign"⟩, [.takum .log .w16]⟩,
  ⟨.takum .log .w32, ⟨.log, .w32, "sign"⟩, [.takum .log .w32]⟩,
  ⟨.takum .log .w64, ⟨.log, .w64, "sign"⟩, [.takum .log .w64]⟩,
  ⟨.takum .lin .w8, ⟨.lin, .w8, "sign"⟩, [.takum .lin .w8]⟩,
  ⟨.takum .lin .w16, ⟨.lin, .w16, "sign"⟩, [.takum .lin .w16]⟩,
  ⟨.takum .lin .w32, ⟨.lin, .w32, "sign"⟩, [.takum .lin .w32]⟩,
  ⟨.takum .lin .w64, ⟨.lin, .w64, "sign"⟩, [.takum .lin .w64]⟩,
  ⟨.takum .log .w8, ⟨.log, .w8, "sin"⟩, [.takum .log .w8]⟩,
  ⟨.takum .log .w16, ⟨.log, .w16, "sin"⟩, [.takum .log .w16]⟩,
  ⟨.takum .log .w32, ⟨.log, .w32, "sin"⟩, [.takum .log .w32]⟩,
  ⟨.takum .log .w64, ⟨.log, .w64, "sin"⟩, [.takum .log .w64]⟩,
  ⟨.takum .lin .w8, ⟨.lin, .w8, "sin"⟩, [.takum .lin .w8]⟩,
  ⟨.takum .lin .w16, ⟨.lin, .w16, "sin"⟩, [.takum .lin .w16]⟩,
  ⟨.takum .lin .w32, ⟨.lin, .w32, "sin"⟩, [.takum .lin .w32]⟩,
  ⟨.takum .lin .w64, ⟨.lin, .w64, "sin"⟩, [.takum .lin .w64]⟩,
  ⟨.takum .log .w8, ⟨.log, .w8, "sin_pi_times"⟩, [.takum .log .w8]⟩,
  ⟨.takum .log .w16, ⟨.log, .w16, "sin_pi_times"⟩, [.takum .log .w16]⟩,
  ⟨.takum .log .w32, ⟨.log, .w32, "sin_pi_times"⟩, [.takum .log .w32]⟩,
  ⟨.takum .log .w64, ⟨.log, .w64, "sin_pi_times"⟩, [.takum .log .w64]⟩,
  ⟨.takum .lin .w8, ⟨.lin, .w8, "sin_pi_times"⟩, [.takum .lin .w8]⟩,
  ⟨.takum .lin .w16, ⟨.lin, .w16, "sin_pi_times"⟩, [.takum .lin .w16]⟩,
  ⟨.takum .lin .w32, ⟨.lin, .w32, "sin_pi_times"⟩, [.takum .lin .w32]⟩,
  ⟨.takum .lin .w64, ⟨.lin, .w64, "sin_pi_times"⟩, [.takum .lin .w64]⟩,
  ⟨.takum .log .w8, ⟨.log, .w8, "sinh"⟩, [.takum .log .w8]⟩,
  ⟨.takum .log .w16, ⟨.log, .w16, "sinh"⟩, [.takum .log .w16]⟩,
  ⟨.takum .log .w32, ⟨.log, .w32, "sinh"⟩, [.takum .log .w32]⟩,
  ⟨.takum .log .w64, ⟨.log, .w64, "sinh"⟩, [.takum .log .w64]⟩,
  ⟨.takum .lin .w8, ⟨.lin, .w8, "sinh"⟩, [.takum .lin .w8]⟩,
  ⟨.takum .lin .w16, ⟨.lin, .w16, "sinh"⟩, [.takum .lin .w16]⟩,
  ⟨.takum .lin .w32, ⟨.lin, .w32, "sinh"⟩, [.takum .lin .w32]⟩,
  ⟨.takum .lin .w64, ⟨.lin, .w64, "sinh"⟩, [.takum .lin .w64]⟩,
  ⟨.takum .log .w8, ⟨.log, .w8, "square_root"⟩, [.takum .log .w8]⟩,
  ⟨.takum .log .w16, ⟨.log, .w16, "square_root"⟩, [.takum .log .w16]⟩,
  ⟨.takum .log .w32, ⟨.log, .w32, "square_root"⟩, [.takum .log .w32]⟩,
  ⟨.takum .log .w64, ⟨.log, .w64, "square_root"⟩, [.takum .log .w64]⟩,
  ⟨.takum .lin .w8, ⟨.lin, .w8, "square_root"⟩, [.takum .lin .w8]⟩,
  ⟨.takum .lin .w16, ⟨.lin, .w16, "square_root"⟩, [.takum .lin .w16]⟩,
  ⟨.takum .lin .w32, ⟨.lin, .w32, "square_root"⟩, [.takum .lin .w32]⟩,
  ⟨.takum .lin .w64, ⟨.lin, .w64, "square_root"⟩, [.takum .lin .w64]⟩,
  ⟨.takum .log .w8, ⟨.log, .w8, "subtraction"⟩, [.takum .log .w8, .takum .log .w8]⟩,
  ⟨.takum .log .w16, ⟨.log, .w16, "subtraction"⟩, [.takum .log .w16, .takum .log .w16]⟩,
  ⟨.takum .log .w32, ⟨.log, .w32, "subtraction"⟩, [.takum .log .w32, .takum .log .w32]⟩,
  ⟨.takum .log .w64, ⟨.log, .w64, "subtraction"⟩, [.takum .log .w64, .takum .log .w64]⟩,
  ⟨.takum .lin .w8, ⟨.lin, .w8, "subtraction"⟩, [.takum .lin .w8, .takum .lin .w8]⟩,
  ⟨.takum .lin .w16, ⟨.lin, .w16, "subtraction"⟩, [.takum .lin .w16, .takum .lin .w16]⟩,
  ⟨.takum .lin .w32, ⟨.lin, .w32, "subtraction"⟩, [.takum .lin .w32, .takum .lin .w32]⟩,
  ⟨.takum .lin .w64, ⟨.lin, .w64, "subtraction"⟩, [.takum .lin .w64, .takum .lin .w64]⟩,
  ⟨.takum .log .w8, ⟨.log, .w8, "tan"⟩, [.takum .log .w8]⟩,
  ⟨.takum .log .w16, ⟨.log, .w16, "tan"⟩, [.takum .log .w16]⟩,
  ⟨.takum .log .w32, ⟨.log, .w32, "tan"⟩, [.takum .log .w32]⟩,
  ⟨.takum .log .w64, ⟨.log, .w64, "tan"⟩, [.takum .log .w64]⟩,
  ⟨.takum .lin .w8, ⟨.lin, .w8, "tan"⟩, [.takum .lin .w8]⟩,
  ⟨.takum .lin .w16, ⟨.lin, .w16, "tan"⟩, [.takum .lin .w16]⟩,
  ⟨.takum .lin .w32, ⟨.lin, .w32, "tan"⟩, [.takum .lin .w32]⟩,
  ⟨.takum .lin .w64, ⟨.lin, .w64, "tan"⟩, [.takum .lin .w64]⟩,
  ⟨.takum .log .w8, ⟨.log, .w8, "tan_pi_times"⟩, [.takum .log .w8]⟩,
  ⟨.takum .log .w16, ⟨.log, .w16, "tan_pi_times"⟩, [.takum .log .w16]⟩,
  ⟨.takum .log .w32, ⟨.log, .w32, "tan_pi_times"⟩, [.takum .log .w32]⟩,
  ⟨.takum .log .w64, ⟨.log, .w64, "tan_pi_times"⟩, [.takum .log .w64]⟩,
  ⟨.takum .lin .w8, ⟨.lin, .w8, "tan_pi_times"⟩, [.takum .lin .w8]⟩,
  ⟨.takum .lin .w16, ⟨.lin, .w16, "tan_pi_times"⟩, [.takum .lin .w16]⟩,
  ⟨.takum .lin .w32, ⟨.lin, .w32, "tan_pi_times"⟩, [.takum .lin .w32]⟩,
  ⟨.takum .lin .w64, ⟨.lin, .w64, "tan_pi_times"⟩, [.takum .lin .w64]⟩,
  ⟨.takum .log .w8, ⟨.log, .w8, "tanh"⟩, [.takum .log .w8]⟩,
  ⟨.takum .log .w16, ⟨.log, .w16, "tanh"⟩, [.takum .log .w16]⟩,
  ⟨.takum .log .w32, ⟨.log, .w32, "tanh"⟩, [.takum .log .w32]⟩,
  ⟨.takum .log .w64, ⟨.log, .w64, "tanh"⟩, [.takum .log .w64]⟩,
  ⟨.takum .lin .w8, ⟨.lin, .w8, "tanh"⟩, [.takum .lin .w8]⟩,
  ⟨.takum .lin .w16, ⟨.lin, .w16, "tanh"⟩, [.takum .lin .w16]⟩,
  ⟨.takum .lin .w32, ⟨.lin, .w32, "tanh"⟩, [.takum .lin .w32]⟩,
  ⟨.takum .lin .w64, ⟨.lin, .w64, "tanh"⟩, [.takum .lin .w64]⟩,
  ⟨.longDouble, ⟨.log, .w8, "to_extended_float"⟩, [.takum .log .w8]⟩,
  ⟨.longDouble, ⟨.log, .w16, "to_extended_float"⟩, [.takum .log .w16]⟩,
  ⟨.longDouble, ⟨.log, .w32, "to_extended_float"⟩, [.takum .log .w32]⟩,
  ⟨.longDouble, ⟨.log, .w64, "to_extended_float"⟩, [.takum .log .w64]⟩,
  ⟨.longDouble, ⟨.lin, .w8, "to_extended_float"⟩, [.takum .lin .w8]⟩,
  ⟨.longDouble, ⟨.lin, .w16, "to_extended_float"⟩, [.takum .lin .w16]⟩,
  ⟨.longDouble, ⟨.lin, .w32, "to_extended_float"⟩, [.takum .lin .w32]⟩,
  ⟨.longDouble, ⟨.lin, .w64, "to_extended_float"⟩, [.takum .lin .w64]⟩,
  ⟨.float, ⟨.log, .w8, "to_float32"⟩, [.takum .log .w8]⟩,
  ⟨.float, ⟨.log, .w16, "to_float32"⟩, [.takum .log .w16]⟩,
  ⟨.float, ⟨.log, .w32, "to_float32"⟩, [.takum .log .w32]⟩,
  ⟨.float, ⟨.log, .w64, "to_float32"⟩, [.takum .log .w64]⟩,
  ⟨.float, ⟨.lin, .w8, "to_float32"⟩, [.takum .lin .w8]⟩,
  ⟨.float, ⟨.lin, .w16, "to_float32"⟩, [.takum .lin .w16]⟩,
  ⟨.float, ⟨.lin, .w32, "to_float32"⟩, [.takum .lin .w32]⟩,
  ⟨.float, ⟨.lin, .w64, "to_float32"⟩, [.takum .lin .w64]⟩,
  ⟨.double, ⟨.log, .w8, "to_float64"⟩, [.takum .log .w8]⟩,
  ⟨.double, ⟨.log, .w16, "to_float64"⟩, [.takum .log .w16]⟩,
  ⟨.double, ⟨.log, .w32, "to_float64"⟩, [.takum .log .w32]⟩,
  ⟨.double, ⟨.log, .w64, "to_float64"⟩, [.takum .log .w64]⟩,
  ⟨.double, ⟨.lin, .w8, "to_float64"⟩, [.takum .lin .w8]⟩,
  ⟨.double, ⟨.lin, .w16, "to_float64"⟩, [.takum .lin .w16]⟩,
  ⟨.double, ⟨.lin, .w32, "to_float64"⟩, [.takum .lin .w32]⟩,
  ⟨.double, ⟨.lin, .w64, "to_float64"⟩, [.takum .lin .w64]⟩]

/-- What a file defines: the expansion of one of the four macros of src/util.h for a name, a function of the interface, or another function. -/
inductive Def
  | unaryLog (name : String) | unaryLin (name : String) | binaryLog (name : String) | binaryLin (name : String)
  | fn (p : Proto)
  | helper (static : Bool) (name : String)
  deriving DecidableEq, Repr

/-- src/*.c: the definitions of each file, in the order of the file. -/
def sources : List (String × List Def) := [
  ("10_raised", [
    .helper true "ten_raised",
    .helper true "ten_raisedl",
    .unaryLog "10_raised",
    .unaryLin "10_raised",
    .helper true "ten_raised_minus_1",
    .helper true "ten_raised_minus_1l",
    .unaryLog "10_raised_minus_1",
    .unaryLin "10_raised_minus_1"]),
  ("2_raised", [
    .unaryLog "2_raised",
    .unaryLin "2_raised",
    .helper true "two_raised_minus_1",
    .helper true "two_raised_minus_1l",
    .unaryLog "2_raised_minus_1",
    .unaryLin "2_raised_minus_1"]),
  ("absolute", [
    .fn ⟨.takum .log .w8, ⟨.log, .w8, "absolute"⟩, [.takum .log .w8]⟩,
    .fn ⟨.takum .log .w16, ⟨.log, .w16, "absolute"⟩, [.takum .log .w16]⟩,
    .fn ⟨.takum .log .w32, ⟨.log, .w32, "absolute"⟩, [.takum .log .w32]⟩,
    .fn ⟨.takum .log .w64, ⟨.log, .w64, "absolute"⟩, [.takum .log .w64]⟩,
    .fn ⟨.takum .lin .w8, ⟨.lin, .w8, "absolute"⟩, [.takum .lin .w8]⟩,
    .fn ⟨.takum .lin .w16, ⟨.lin, .w16, "absolute"⟩, [.takum .lin .w16]⟩,
    .fn ⟨.takum .lin .w32, ⟨.lin, .w32, "absolute"⟩, [.takum .lin .w32]⟩,
    .fn ⟨.takum .lin .w64, ⟨.lin, .w64, "absolute"⟩, [.takum .lin .w64]⟩]),
  ("addition", [
    .helper true "addition",
    .helper true "additionl",
    .binaryLog "addition",
    .binaryLin "addition"]),
  ("arccos", [
    .unaryLog "arccos",
    .unaryLin "arccos",
    .helper true "arccospi",
    .helper true "arccospil",
    .unaryLog "arccos_over_pi",
    .unaryLin "arccos_over_pi"]),
  ("arccot", [
    .helper true "arccotl",
    .helper true "arccot",
    .unaryLog "arccot",
    .unaryLin "arccot",
    .helper false "arccot_over_pil",
    .helper false "arccot_over_pi",
    .unaryLog "arccot_over_pi",
    .unaryLin "arccot_over_pi"]),
  ("arccsc", [
    .helper true "arccscl",
    .helper true "arccsc",
    .unaryLog "arccsc",
    .unaryLin "arccsc",
    .helper false "arccsc_over_pil",
    .helper false "arccsc_over_pi",
    .unaryLog "arccsc_over_pi",
    .unaryLin "arccsc_over_pi"]),
  ("arcosh", [
    .unaryLog "arcosh",
    .unaryLin "arcosh"]),
  ("arcoth", [
    .helper true "arcothl",
    .helper true "arcoth",
    .unaryLog "arcoth",
    .unaryLin "arcoth"]),
  ("arcsch", [
    .helper true "arcschl",
    .helper true "arcsch",
    .unaryLog "arcsch",
    .unaryLin "arcsch"]),
  ("arcsec", [
    .helper true "arcsecl",
    .helper true "arcsec",
    .unaryLog "arcsec",
    .unaryLin "arcsec",
    .helper true "arcsec_over_pil",
    .helper true "arcsec_over_pi",
    .unaryLog "arcsec_over_pi",
    .unaryLin "arcsec_over_pi"]),
  ("arcsin", [
    .unaryLog "arcsin",
    .unaryLin "arcsin",
    .helper true "arcsin_over_pil",
    .helper true "arcsin_over_pi",
    .unaryLog "arcsin_over_pi",
    .unaryLin "arcsin_over_pi"]),
  ("arctan", [
    .unaryLog "arctan",
    .unaryLin "arctan",
    .helper true "arctanpi",
    .helper true "arctanpil",
    .unaryLog "arctan_over_pi",
    .unaryLin "arctan_over_pi"]),
  ("arctan2", [
    .binaryLog "arctan2",
    .binaryLin "arctan2",
    .helper true "arctan2pi",
    .helper true "arctan2pil",
    .binaryLog "arctan2_over_pi",
    .binaryLin "arctan2_over_pi"]),
  ("arsech", [
    .helper true "arsechl",
    .helper true "arsech",
    .unaryLog "arsech",
    .unaryLin "arsech"]),
  ("arsinh", [
    .unaryLog "arsinh",
    .unaryLin "arsinh"]),
  ("artanh", [
    .unaryLog "artanh",
    .unaryLin "artanh"]),
  ("codec", [
    .helper true "get_c_and_return_shift",
    .helper false "codec_takum8_to_l",
    .helper false "codec_takum16_to_l",
    .helper false "codec_takum32_to_l",
    .helper false "codec_takum64_to_l",
    .helper false "codec_s_and_linear_l_to_float64",
    .helper false "codec_s_and_linear_l_to_extended_float",
    .helper true "float32_fraction_to_rounded_bits",
    .helper true "float64_fraction_to_rounded_bits",
    .helper true "extended_float_fraction_to_rounded_bits",
    .helper false "codec_linear_l_from_float32",
    .helper false "codec_linear_l_from_float64",
    .helper false "codec_linear_l_from_extended_float",
    .helper false "codec_takum8_from_s_and_l",
    .helper false "codec_takum16_from_s_and_l",
    .helper false "codec_takum32_from_s_and_l",
    .helper false "codec_takum64_from_s_and_l"]),
  ("conversion", [
    .fn ⟨.takum .log .w8, ⟨.log, .w8, "from_float32"⟩, [.float]⟩,
    .fn ⟨.takum .log .w16, ⟨.log, .w16, "from_float32"⟩, [.float]⟩,
    .fn ⟨.takum .log .w32, ⟨.log, .w32, "from_float32"⟩, [.float]⟩,
    .fn ⟨.takum .log .w64, ⟨.log, .w64, "from_float32"⟩, [.float]⟩,
    .fn ⟨.takum .lin .w8, ⟨.lin, .w8, "from_float32"⟩, [.float]⟩,
    .fn ⟨.takum .lin .w16, ⟨.lin, .w16, "from_float32"⟩, [.float]⟩,
    .fn ⟨.takum .lin .w32, ⟨.lin, .w32, "from_float32"⟩, [.float]⟩,
    .fn ⟨.takum .lin .w64, ⟨.lin, .w64, "from_float32"⟩, [.float]⟩,
    .fn ⟨.takum .log .w8, ⟨.log, .w8, "from_float64"⟩, [.double]⟩,
    .fn ⟨.takum .log .w16, ⟨.log, .w16, "from_float64"⟩, [.double]⟩,
    .fn ⟨.takum .log .w32, ⟨.log, .w32, "from_float64"⟩, [.double]⟩,
    .fn ⟨.takum .log .w64, ⟨.log, .w64, "from_float64"⟩, [.double]⟩,
    .fn ⟨.takum .lin .w8, ⟨.lin, .w8, "from_float64"⟩, [.double]⟩,
    .fn ⟨.takum .lin .w16, ⟨.lin, .w16, "from_float64"⟩, [.double]⟩,
    .fn ⟨.takum .lin .w32, ⟨.lin, .w32, "from_float64"⟩, [.double]⟩,
    .fn ⟨.takum .lin .w64, ⟨.lin, .w64, "from_float64"⟩, [.double]⟩,
    .fn ⟨.takum .log .w8, ⟨.log, .w8, "from_extended_float"⟩, [.longDouble]⟩,
    .fn ⟨.takum .log .w16, ⟨.log, .w16, "from_extended_float"⟩, [.longDouble]⟩,
    .fn ⟨.takum .log .w32, ⟨.log, .w32, "from_extended_float"⟩, [.longDouble]⟩,
    .fn ⟨.takum .log .w64, ⟨.log, .w64, "from_extended_float"⟩, [.longDouble]⟩,
    .fn ⟨.takum .lin .w8, ⟨.lin, .w8, "from_extended_float"⟩, [.longDouble]⟩,
    .fn ⟨.takum .lin .w16, ⟨.lin, .w16, "from_extended_float"⟩, [.longDouble]⟩,
    .fn ⟨.takum .lin .w32, ⟨.lin, .w32, "from_extended_float"⟩, [.longDouble]⟩,
    .fn ⟨.takum .lin .w64, ⟨.lin, .w64, "from_extended_float"⟩, [.longDouble]⟩,
    .fn ⟨.takum .log .w16, ⟨.log, .w16, "from_takum8"⟩, [.takum .log .w8]⟩,
    .fn ⟨.takum .log .w32, ⟨.log, .w32, "from_takum8"⟩, [.takum .log .w8]⟩,
    .fn ⟨.takum .log .w64, ⟨.log, .w64, "from_takum8"⟩, [.takum .log .w8]⟩,
    .fn ⟨.takum .lin .w8, ⟨.lin, .w8, "from_takum8"⟩, [.takum .log .w8]⟩,
    .fn ⟨.takum .lin .w16, ⟨.lin, .w16, "from_takum8"⟩, [.takum .log .w8]⟩,
    .fn ⟨.takum .lin .w32, ⟨.lin, .w32, "from_takum8"⟩, [.takum .log .w8]⟩,
    .fn ⟨.takum .lin .w64, ⟨.lin, .w64, "from_takum8"⟩, [.takum .log .w8]⟩,
    .fn ⟨.takum .log .w8, ⟨.log, .w8, "from_takum16"⟩, [.takum .log .w16]⟩,
    .fn ⟨.takum .log .w32, ⟨.log, .w32, "from_takum16"⟩, [.takum .log .w16]⟩,
    .fn ⟨.takum .log .w64, ⟨.log, .w64, "from_takum16"⟩, [.takum .log .w16]⟩,
    .fn ⟨.takum .lin .w8, ⟨.lin, .w8, "from_takum16"⟩, [.takum .log .w16]⟩,
    .fn ⟨.takum .lin .w16, ⟨.lin, .w16, "from_takum16"⟩, [.takum .log .w16]⟩,
    .fn ⟨.takum .lin .w32, ⟨.lin, .w32, "from_takum16"⟩, [.takum .log .w16]⟩,
    .fn ⟨.takum .lin .w64, ⟨.lin, .w64, "from_takum16"⟩, [.takum .log .w16]⟩,
    .fn ⟨.takum .log .w8, ⟨.log, .w8, "from_takum32"⟩, [.takum .log .w32]⟩,
    .fn ⟨.takum .log .w16, ⟨.log, .w16, "from_takum32"⟩, [.takum .log .w32]⟩,
    .fn ⟨.takum .log .w64, ⟨.log, .w64, "from_takum32"⟩, [.takum .log .w32]⟩,
    .fn ⟨.takum .lin .w8, ⟨.lin, .w8, "from_takum32"⟩, [.takum .log .w32]⟩,
    .fn ⟨.takum .lin .w16, ⟨.lin, .w16, "from_takum32"⟩, [.takum .log .w32]⟩,
    .fn ⟨.takum .lin .w32, ⟨.lin, .w32, "from_takum32"⟩, [.takum .log .w32]⟩,
    .fn ⟨.takum .lin .w64, ⟨.lin, .w64, "from_takum32"⟩, [.takum .log .w32]⟩,
    .fn ⟨.takum .log .w8, ⟨.log, .w8, "from_takum64"⟩, [.takum .log .w64]⟩,
    .fn ⟨.takum .log .w16, ⟨.log, .w16, "from_takum64"⟩, [.takum .log .w64]⟩,
    .fn ⟨.takum .log .w32, ⟨.log, .w32, "from_takum64"⟩, [.takum .log .w64]⟩,
    .fn ⟨.takum .lin .w8, ⟨.lin, .w8, "from_takum64"⟩, [.takum .log .w64]⟩,
    .fn ⟨.takum .lin .w16, ⟨.lin, .w16, "from_takum64"⟩, [.takum .log .w64]⟩,
    .fn ⟨.takum .lin .w32, ⟨.lin, .w32, "from_takum64"⟩, [.takum .log .w64]⟩,
    .fn ⟨.takum .lin .w64, ⟨.lin, .w64, "from_takum64"⟩, [.takum .log .w64]⟩,
    .fn ⟨.takum .log .w8, ⟨.log, .w8, "from_takum_linear8"⟩, [.takum .lin .w8]⟩,
    .fn ⟨.takum .log .w16, ⟨.log, .w16, "from_takum_linear8"⟩, [.takum .lin .w8]⟩,
    .fn ⟨.takum .log .w32, ⟨.log, .w32, "from_takum_linear8"⟩, [.takum .lin .w8]⟩,
    .fn ⟨.takum .log .w64, ⟨.log, .w64, "from_takum_linear8"⟩, [.takum .lin .w8]⟩,
    .fn ⟨.takum .lin .w16, ⟨.lin, .w16, "from_takum_linear8"⟩, [.takum .lin .w8]⟩,
    .fn ⟨.takum .lin .w32, ⟨.lin, .w32, "from_takum_linear8"⟩, [.takum .lin .w8]⟩,
    .fn ⟨.takum .lin .w64, ⟨.lin, .w64, "from_takum_linear8"⟩, [.takum .lin .w8]⟩,
    .fn ⟨.takum .log .w8, ⟨.log, .w8, "from_takum_linear16"⟩, [.takum .lin .w16]⟩,
    .fn ⟨.takum .log .w16, ⟨.log, .w16, "from_takum_linear16"⟩, [.takum .lin .w16]⟩,
    .fn ⟨.takum .log .w32, ⟨.log, .w32, "from_takum_linear16"⟩, [.takum .lin .w16]⟩,
    .fn ⟨.takum .log .w64, ⟨.log, .w64, "from_takum_linear16"⟩, [.takum .lin .w16]⟩,
    .fn ⟨.takum .lin .w8, ⟨.lin, .w8, "from_takum_linear16"⟩, [.takum .lin .w16]⟩,
    .fn ⟨.takum .lin .w32, ⟨.lin, .w32, "from_takum_linear16"⟩, [.takum .lin .w16]⟩,
    .fn ⟨.takum .lin .w64, ⟨.lin, .w64, "from_takum_linear16"⟩, [.takum .lin .w16]⟩,
    .fn ⟨.takum .log .w8, ⟨.log, .w8, "from_takum_linear32"⟩, [.takum .lin .w32]⟩,
    .fn ⟨.takum .log .w16, ⟨.log, .w16, "from_takum_linear32"⟩, [.takum .lin .w32]⟩,
    .fn ⟨.takum .log .w32, ⟨.log, .w32, "from_takum_linear32"⟩, [.takum .lin .w32]⟩,
    .fn ⟨.takum .log .w64, ⟨.log, .w64, "from_takum_linear32"⟩, [.takum .lin .w32]⟩,
    .fn ⟨.takum .lin .w8, ⟨.lin, .w8, "from_takum_linear32"⟩, [.takum .lin .w32]⟩,
    .fn ⟨.takum .lin .w16, ⟨.lin, .w16, "from_takum_linear32"⟩, [.takum .lin .w32]⟩,
    .fn ⟨.takum .lin .w64, ⟨.lin, .w64, "from_takum_linear32"⟩, [.takum .lin .w32]⟩,
    .fn ⟨.takum .log .w8, ⟨.log, .w8, "from_takum_linear64"⟩, [.takum .lin .w64]⟩,
    .fn ⟨.takum .log .w16, ⟨.log, .w16, "from_takum_linear64"⟩, [.takum .lin .w64]⟩,
    .fn ⟨.takum .log .w32, ⟨.log, .w32, "from_takum_linear64"⟩, [.takum .lin .w64]⟩,
    .fn ⟨.takum .log .w64, ⟨.log, .w64, "from_takum_linear64"⟩, [.takum .lin .w64]⟩,
    .fn ⟨.takum .lin .w8, ⟨.lin, .w8, "from_takum_linear64"⟩, [.takum .lin .w64]⟩,
    .fn ⟨.takum .lin .w16, ⟨.lin, .w16, "from_takum_linear64"⟩, [.takum .lin .w64]⟩,
    .fn ⟨.takum .lin .w32, ⟨.lin, .w32, "from_takum_linear64"⟩, [.takum .lin .w64]⟩,
    .fn ⟨.float, ⟨.log, .w8, "to_float32"⟩, [.takum .log .w8]⟩,
    .fn ⟨.float, ⟨.log, .w16, "to_float32"⟩, [.takum .log .w16]⟩,
    .fn ⟨.float, ⟨.log, .w32, "to_float32"⟩, [.takum .log .w32]⟩,
    .fn ⟨.float, ⟨.log, .w64, "to_float32"⟩, [.takum .log .w64]⟩,
    .fn ⟨.float, ⟨.lin, .w8, "to_float32"⟩, [.takum .lin .w8]⟩,
    .fn ⟨.float, ⟨.lin, .w16, "to_float32"⟩, [.takum .lin .w16]⟩,
    .fn ⟨.float, ⟨.lin, .w32, "to_float32"⟩, [.takum .lin .w32]⟩,
    .fn ⟨.float, ⟨.lin, .w64, "to_float32"⟩, [.takum .lin .w64]⟩,
    .fn ⟨.double, ⟨.log, .w8, "to_float64"⟩, [.takum .log .w8]⟩,
    .fn ⟨.double, ⟨.log, .w16, "to_float64"⟩, [.takum .log .w16]⟩,
    .fn ⟨.double, ⟨.log, .w32, "to_float64"⟩, [.takum .log .w32]⟩,
    .fn ⟨.double, ⟨.log, .w64, "to_float64"⟩, [.takum .log .w64]⟩,
    .fn ⟨.double, ⟨.lin, .w8, "to_float64"⟩, [.takum .lin .w8]⟩,
    .fn ⟨.double, ⟨.lin, .w16, "to_float64"⟩, [.takum .lin .w16]⟩,
    .fn ⟨.double, ⟨.lin, .w32, "to_float64"⟩, [.takum .lin .w32]⟩,
    .fn ⟨.double, ⟨.lin, .w64, "to_float64"⟩, [.takum .lin .w64]⟩,
    .fn ⟨.longDouble, ⟨.log, .w8, "to_extended_float"⟩, [.takum .log .w8]⟩,
    .fn ⟨.longDouble, ⟨.log, .w16, "to_extended_float"⟩, [.takum .log .w16]⟩,
    .fn ⟨.longDouble, ⟨.log, .w32, "to_extended_float"⟩, [.takum .log .w32]⟩,
    .fn ⟨.longDouble, ⟨.log, .w64, "to_extended_float"⟩, [.takum .log .w64]⟩,
    .fn ⟨.longDouble, ⟨.lin, .w8, "to_extended_float"⟩, [.takum .lin .w8]⟩,
    .fn ⟨.longDouble, ⟨.lin, .w16, "to_extended_float"⟩, [.takum .lin .w16]⟩,
    .fn ⟨.longDouble, ⟨.lin, .w32, "to_extended_float"⟩, [.takum .lin .w32]⟩,
    .fn ⟨.longDouble, ⟨.lin, .w64, "to_extended_float"⟩, [.takum .lin .w64]⟩]),
  ("cos", [
    .unaryLog "cos",
    .unaryLin "cos",
    .helper true "cospil",
    .helper true "cospi",
    .unaryLog "cos_pi_times",
    .unaryLin "cos_pi_times"]),
  ("cosh", [
    .unaryLog "cosh",
    .unaryLin "cosh"]),
  ("cot", [
    .helper true "cotl",
    .helper true "cot",
    .unaryLog "cot",
    .unaryLin "cot",
    .helper true "cot_pi_timesl",
    .helper true "cot_pi_times",
    .unaryLog "cot_pi_times",
    .unaryLin "cot_pi_times"]),
  ("coth", [
    .helper true "cothl",
    .helper true "coth",
    .unaryLog "coth",
    .unaryLin "coth"]),
  ("csc", [
    .helper true "cscl",
    .helper true "csc",
    .unaryLog "csc",
    .unaryLin "csc",
    .helper true "csc_pi_timesl",
    .helper true "csc_pi_times",
    .unaryLog "csc_pi_times",
    .unaryLin "csc_pi_times"]),
  ("csch", [
    .helper true "cschl",
    .helper true "csch",
    .unaryLog "csch",
    .unaryLin "csch"]),
  ("division", [
    .fn ⟨.takum .log .w8, ⟨.log, .w8, "division"⟩, [.takum .log .w8, .takum .log .w8]⟩,
    .fn ⟨.takum .log .w16, ⟨.log, .w16, "division"⟩, [.takum .log .w16, .takum .log .w16]⟩,
    .fn ⟨.takum .log .w32, ⟨.log, .w32, "division"⟩, [.takum .log .w32, .takum .log .w32]⟩,
    .fn ⟨.takum .log .w64, ⟨.log, .w64, "division"⟩, [.takum .log .w64, .takum .log .w64]⟩,
    .helper true "divisionl",
    .helper true "division",
    .binaryLin "division"]),
  ("exp", [
    .unaryLog "exp",
    .unaryLin "exp",
    .unaryLog "exp_minus_1",
    .unaryLin "exp_minus_1"]),
  ("hypotenuse", [
    .binaryLog "hypotenuse",
    .binaryLin "hypotenuse"]),
  ("integer_power", [
    .fn ⟨.takum .log .w8, ⟨.log, .w8, "integer_power"⟩, [.takum .log .w8, .int64]⟩,
    .fn ⟨.takum .log .w16, ⟨.log, .w16, "integer_power"⟩, [.takum .log .w16, .int64]⟩,
    .fn ⟨.takum .log .w32, ⟨.log, .w32, "integer_power"⟩, [.takum .log .w32, .int64]⟩,
    .fn ⟨.takum .log .w64, ⟨.log, .w64, "integer_power"⟩, [.takum .log .w64, .int64]⟩,
    .fn ⟨.takum .lin .w8, ⟨.lin, .w8, "integer_power"⟩, [.takum .lin .w8, .int64]⟩,
    .fn ⟨.takum .lin .w16, ⟨.lin, .w16, "integer_power"⟩, [.takum .lin .w16, .int64]⟩,
    .fn ⟨.takum .lin .w32, ⟨.lin, .w32, "integer_power"⟩, [.takum .lin .w32, .int64]⟩,
    .fn ⟨.takum .lin .w64, ⟨.lin, .w64, "integer_power"⟩, [.takum .lin .w64, .int64]⟩]),
  ("inversion", [
    .fn ⟨.takum .log .w8, ⟨.log, .w8, "inversion"⟩, [.takum .log .w8]⟩,
    .fn ⟨.takum .log .w16, ⟨.log, .w16, "inversion"⟩, [.takum .log .w16]⟩,
    .fn ⟨.takum .log .w32, ⟨.log, .w32, "inversion"⟩, [.takum .log .w32]⟩,
    .fn ⟨.takum .log .w64, ⟨.log, .w64, "inversion"⟩, [.takum .log .w64]⟩,
    .helper true "inversionl",
    .helper true "inversion",
    .unaryLin "inversion"]),
  ("lb", [
    .unaryLog "lb",
    .unaryLin "lb",
    .helper true "lb_1_plusl",
    .helper true "lb_1_plus",
    .unaryLog "lb_1_plus",
    .unaryLin "lb_1_plus"]),
  ("lg", [
    .unaryLog "lg",
    .unaryLin "lg",
    .helper true "lg_1_plusl",
    .helper true "lg_1_plus",
    .unaryLog "lg_1_plus",
    .unaryLin "lg_1_plus"]),
  ("ln", [
    .unaryLog "ln",
    .unaryLin "ln",
    .unaryLog "ln_1_plus",
    .unaryLin "ln_1_plus"]),
  ("multiplication", [
    .fn ⟨.takum .log .w8, ⟨.log, .w8, "multiplication"⟩, [.takum .log .w8, .takum .log .w8]⟩,
    .fn ⟨.takum .log .w16, ⟨.log, .w16, "multiplication"⟩, [.takum .log .w16, .takum .log .w16]⟩,
    .fn ⟨.takum .log .w32, ⟨.log, .w32, "multiplication"⟩, [.takum .log .w32, .takum .log .w32]⟩,
    .fn ⟨.takum .log .w64, ⟨.log, .w64, "multiplication"⟩, [.takum .log .w64, .takum .log .w64]⟩,
    .helper true "multiplication",
    .helper true "multiplicationl",
    .binaryLin "multiplication"]),
  ("power", [
    .binaryLog "power",
    .binaryLin "power"]),
  ("precision", [
    .fn ⟨.uint8, ⟨.log, .w8, "precision"⟩, [.takum .log .w8]⟩,
    .fn ⟨.uint8, ⟨.log, .w16, "precision"⟩, [.takum .log .w16]⟩,
    .fn ⟨.uint8, ⟨.log, .w32, "precision"⟩, [.takum .log .w32]⟩,
    .fn ⟨.uint8, ⟨.log, .w64, "precision"⟩, [.takum .log .w64]⟩,
    .fn ⟨.uint8, ⟨.lin, .w8, "precision"⟩, [.takum .lin .w8]⟩,
    .fn ⟨.uint8, ⟨.lin, .w16, "precision"⟩, [.takum .lin .w16]⟩,
    .fn ⟨.uint8, ⟨.lin, .w32, "precision"⟩, [.takum .lin .w32]⟩,
    .fn ⟨.uint8, ⟨.lin, .w64, "precision"⟩, [.takum .lin .w64]⟩]),
  ("root", [
    .fn ⟨.takum .log .w8, ⟨.log, .w8, "root"⟩, [.takum .log .w8, .int64]⟩,
    .fn ⟨.takum .log .w16, ⟨.log, .w16, "root"⟩, [.takum .log .w16, .int64]⟩,
    .fn ⟨.takum .log .w32, ⟨.log, .w32, "root"⟩, [.takum .log .w32, .int64]⟩,
    .fn ⟨.takum .log .w64, ⟨.log, .w64, "root"⟩, [.takum .log .w64, .int64]⟩,
    .fn ⟨.takum .lin .w8, ⟨.lin, .w8, "root"⟩, [.takum .lin .w8, .int64]⟩,
    .fn ⟨.takum .lin .w16, ⟨.lin, .w16, "root"⟩, [.takum .lin .w16, .int64]⟩,
    .fn ⟨.takum .lin .w32, ⟨.lin, .w32, "root"⟩, [.takum .lin .w32, .int64]⟩,
    .fn ⟨.takum .lin .w64, ⟨.lin, .w64, "root"⟩, [.takum .lin .w64, .int64]⟩]),
  ("sec", [
    .helper true "secl",
    .helper true "sec",
    .unaryLog "sec",
    .unaryLin "sec",
    .helper true "sec_pi_timesl",
    .helper true "sec_pi_times",
    .unaryLog "sec_pi_times",
    .unaryLin "sec_pi_times"]),
  ("sech", [
    .helper true "sech",
    .helper true "sechl",
    .unaryLog "sech",
    .unaryLin "sech"]),
  ("sign", [
    .fn ⟨.takum .log .w8, ⟨.log, .w8, "sign"⟩, [.takum .log .w8]⟩,
    .fn ⟨.takum .log .w16, ⟨.log, .w16, "sign"⟩, [.takum .log .w16]⟩,
    .fn ⟨.takum .log .w32, ⟨.log, .w32, "sign"⟩, [.takum .log .w32]⟩,
    .fn ⟨.takum .log .w64, ⟨.log, .w64, "sign"⟩, [.takum .log .w64]⟩,
    .fn ⟨.takum .lin .w8, ⟨.lin, .w8, "sign"⟩, [.takum .lin .w8]⟩,
    .fn ⟨.takum .lin .w16, ⟨.lin, .w16, "sign"⟩, [.takum .lin .w16]⟩,
    .fn ⟨.takum .lin .w32, ⟨.lin, .w32, "sign"⟩, [.takum .lin .w32]⟩,
    .fn ⟨.takum .lin .w64, ⟨.lin, .w64, "sign"⟩, [.takum .lin .w64]⟩]),
  ("sin", [
    .unaryLog "sin",
    .unaryLin "sin",
    .helper true "sinpil",
    .helper true "sinpi",
    .unaryLog "sin_pi_times",
    .unaryLin "sin_pi_times"]),
  ("sinh", [
    .unaryLog "sinh",
    .unaryLin "sinh"]),
  ("square_root", [
    .fn ⟨.takum .log .w8, ⟨.log, .w8, "square_root"⟩, [.takum .log .w8]⟩,
    .fn ⟨.takum .log .w16, ⟨.log, .w16, "square_root"⟩, [.takum .log .w16]⟩,
    .fn ⟨.takum .log .w32, ⟨.log, .w32, "square_root"⟩, [.takum .log .w32]⟩,
    .fn ⟨.takum .log .w64, ⟨.log, .w64, "square_root"⟩, [.takum .log .w64]⟩,
    .unaryLin "square_root"]),
  ("subtraction", [
    .helper true "subtraction",
    .helper true "subtractionl",
    .binaryLog "subtraction",
    .binaryLin "subtraction"]),
  ("tan", [
    .unaryLog "tan",
    .unaryLin "tan",
    .helper true "tanpil",
    .helper true "tanpi",
    .unaryLog "tan_pi_times",
    .unaryLin "tan_pi_times"]),
  ("tanh", [
    .unaryLog "tanh",
    .unaryLin "tanh"]),
  ("util", [
    .helper false "util_round_uint8_to_number_of_bits",
    .helper false "util_round_uint16_to_number_of_bits",
    .helper false "util_round_uint32_to_number_of_bits",
    .helper false "util_round_uint64_to_number_of_bits"])]

/-- src/codec.h:9-24 and src/util.h:224-227: the functions that the files of the library share. -/
def internal : List String := [
  "codec_takum8_to_l",
  "codec_takum16_to_l",
  "codec_takum32_to_l",
  "codec_takum64_to_l",
  "codec_s_and_linear_l_to_float64",
  "codec_s_and_linear_l_to_extended_float",
  "codec_linear_l_from_float32",
  "codec_linear_l_from_float64",
  "codec_linear_l_from_extended_float",
  "codec_takum8_from_s_and_l",
  "codec_takum16_from_s_and_l",
  "codec_takum32_from_s_and_l",
  "codec_takum64_from_s_and_l",
  "util_round_uint8_to_number_of_bits",
  "util_round_uint16_to_number_of_bits",
  "util_round_uint32_to_number_of_bits",
  "util_round_uint64_to_number_of_bits"]

/-- src/util.h:24-201: what the macros and the definitions expand to. The macros define the functions of the four widths, with one or two
arguments. -/
def Def.protos : Def → List Proto
  | .unaryLog n => [.w8, .w16, .w32, .w64].map fun w => ⟨.takum .log w, ⟨.log, w, n⟩, [.takum .log w]⟩
  | .unaryLin n => [.w8, .w16, .w32, .w64].map fun w => ⟨.takum .lin w, ⟨.lin, w, n⟩, [.takum .lin w]⟩
  | .binaryLog n => [.w8, .w16, .w32, .w64].map fun w => ⟨.takum .log w, ⟨.log, w, n⟩, [.takum .log w, .takum .log w]⟩
  | .binaryLin n => [.w8, .w16, .w32, .w64].map fun w => ⟨.takum .lin w, ⟨.lin, w, n⟩, [.takum .lin w, .takum .lin w]⟩
  | .fn p => [p]
  | .helper _ _ => []

/-- The helpers with external linkage (src/*.c): defined without `static`. -/
def Def.external : Def → Option String
  | .helper false n => some n
  | _ => none

end Takum.Iface
