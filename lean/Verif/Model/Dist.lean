import Verif.Model.Install

/-!
# The other rules of the Makefile: libraries, programs and tests; `clean` and `dist`

Names are written as in the Makefile, with `$(BINSUFFIX)`, `$(ANAME)` and `$(SONAME)` not expanded.
-/

namespace Takum.Make
open Takum.Iface Takum.Man

/-- Makefile:831-878, the prerequisites of the programs. -/
def programRules : List (String × List String) := [
  ("example/calculator$(BINSUFFIX)", ["example/calculator.o", "example/util.o", "$(ANAME)"]),
  ("test/10_raised$(BINSUFFIX)", ["test/10_raised.o", "test/util.o", "$(ANAME)"]),
  ("test/2_raised$(BINSUFFIX)", ["test/2_raised.o", "test/util.o", "$(ANAME)"]),
  ("test/absolute$(BINSUFFIX)", ["test/absolute.o", "test/util.o", "$(ANAME)"]),
  ("test/addition$(BINSUFFIX)", ["test/addition.o", "test/util.o", "$(ANAME)"]),
  ("test/arccos$(BINSUFFIX)", ["test/arccos.o", "test/util.o", "$(ANAME)"]),
  ("test/arccot$(BINSUFFIX)", ["test/arccot.o", "test/util.o", "$(ANAME)"]),
  ("test/arccsc$(BINSUFFIX)", ["test/arccsc.o", "test/util.o", "$(ANAME)"]),
  ("test/arcosh$(BINSUFFIX)", ["test/arcosh.o", "test/util.o", "$(ANAME)"]),
  ("test/arcoth$(BINSUFFIX)", ["test/arcoth.o", "test/util.o", "$(ANAME)"]),
  ("test/arcsch$(BINSUFFIX)", ["test/arcsch.o", "test/util.o", "$(ANAME)"]),
  ("test/arcsec$(BINSUFFIX)", ["test/arcsec.o", "test/util.o", "$(ANAME)"]),
  ("test/arcsin$(BINSUFFIX)", ["test/arcsin.o", "test/util.o", "$(ANAME)"]),
  ("test/arctan$(BINSUFFIX)", ["test/arctan.o", "test/util.o", "$(ANAME)"]),
  ("test/arctan2$(BINSUFFIX)", ["test/arctan2.o", "test/util.o", "$(ANAME)"]),
  ("test/arsech$(BINSUFFIX)", ["test/arsech.o", "test/util.o", "$(ANAME)"]),
  ("test/arsinh$(BINSUFFIX)", ["test/arsinh.o", "test/util.o", "$(ANAME)"]),
  ("test/artanh$(BINSUFFIX)", ["test/artanh.o", "test/util.o", "$(ANAME)"]),
  ("test/codec$(BINSUFFIX)", ["test/codec.o", "test/util.o", "$(ANAME)"]),
  ("test/constants$(BINSUFFIX)", ["test/constants.o", "test/util.o", "$(ANAME)"]),
  ("test/conversion$(BINSUFFIX)", ["test/conversion.o", "test/util.o", "$(ANAME)"]),
  ("test/cos$(BINSUFFIX)", ["test/cos.o", "test/util.o", "$(ANAME)"]),
  ("test/cosh$(BINSUFFIX)", ["test/cosh.o", "test/util.o", "$(ANAME)"]),
  ("test/cot$(BINSUFFIX)", ["test/cot.o", "test/util.o", "$(ANAME)"]),
  ("test/coth$(BINSUFFIX)", ["test/coth.o", "test/util.o", "$(ANAME)"]),
  ("test/csc$(BINSUFFIX)", ["test/csc.o", "test/util.o", "$(ANAME)"]),
  ("test/csch$(BINSUFFIX)", ["test/csch.o", "test/util.o", "$(ANAME)"]),
  ("test/division$(BINSUFFIX)", ["test/division.o", "test/util.o", "$(ANAME)"]),
  ("test/exp$(BINSUFFIX)", ["test/exp.o", "test/util.o", "$(ANAME)"]),
  ("test/hypotenuse$(BINSUFFIX)", ["test/hypotenuse.o", "test/util.o", "$(ANAME)"]),
  ("test/integer_power$(BINSUFFIX)", ["test/integer_power.o", "test/util.o", "$(ANAME)"]),
  ("test/inversion$(BINSUFFIX)", ["test/inversion.o", "test/util.o", "$(ANAME)"]),
  ("test/lb$(BINSUFFIX)", ["test/lb.o", "test/util.o", "$(ANAME)"]),
  ("test/lg$(BINSUFFIX)", ["test/lg.o", "test/util.o", "$(ANAME)"]),
  ("test/ln$(BINSUFFIX)", ["test/ln.o", "test/util.o", "$(ANAME)"]),
  ("test/multiplication$(BINSUFFIX)", ["test/multiplication.o", "test/util.o", "$(ANAME)"]),
  ("test/power$(BINSUFFIX)", ["test/power.o", "test/util.o", "$(ANAME)"]),
  ("test/precision$(BINSUFFIX)", ["test/precision.o", "test/util.o", "$(ANAME)"]),
  ("test/root$(BINSUFFIX)", ["test/root.o", "test/util.o", "$(ANAME)"]),
  ("test/sec$(BINSUFFIX)", ["test/sec.o", "test/util.o", "$(ANAME)"]),
  ("test/sech$(BINSUFFIX)", ["test/sech.o", "test/util.o", "$(ANAME)"]),
  ("test/sign$(BINSUFFIX)", ["test/sign.o", "test/util.o", "$(ANAME)"]),
  ("test/sin$(BINSUFFIX)", ["test/sin.o", "test/util.o", "$(ANAME)"]),
  ("test/sinh$(BINSUFFIX)", ["test/sinh.o", "test/util.o", "$(ANAME)"]),
  ("test/square_root$(BINSUFFIX)", ["test/square_root.o", "test/util.o", "$(ANAME)"]),
  ("test/subtraction$(BINSUFFIX)", ["test/subtraction.o", "test/util.o", "$(ANAME)"]),
  ("test/tan$(BINSUFFIX)", ["test/tan.o", "test/util.o", "$(ANAME)"]),
  ("test/tanh$(BINSUFFIX)", ["test/tanh.o", "test/util.o", "$(ANAME)"])]

/-- Makefile:880-926, the prerequisites of the results of the tests. -/
def testRules : List (String × List String) := [
  ("test/10_raised.success", ["test/10_raised$(BINSUFFIX)"]),
  ("test/2_raised.success", ["test/2_raised$(BINSUFFIX)"]),
  ("test/absolute.success", ["test/absolute$(BINSUFFIX)"]),
  ("test/addition.success", ["test/addition$(BINSUFFIX)"]),
  ("test/arccos.success", ["test/arccos$(BINSUFFIX)"]),
  ("test/arccot.success", ["test/arccot$(BINSUFFIX)"]),
  ("test/arccsc.success", ["test/arccsc$(BINSUFFIX)"]),
  ("test/arcosh.success", ["test/arcosh$(BINSUFFIX)"]),
  ("test/arcoth.success", ["test/arcoth$(BINSUFFIX)"]),
  ("test/arcsch.success", ["test/arcsch$(BINSUFFIX)"]),
  ("test/arcsec.success", ["test/arcsec$(BINSUFFIX)"]),
  ("test/arcsin.success", ["test/arcsin$(BINSUFFIX)"]),
  ("test/arctan.success", ["test/arctan$(BINSUFFIX)"]),
  ("test/arctan2.success", ["test/arctan2$(BINSUFFIX)"]),
  ("test/arsech.success", ["test/arsech$(BINSUFFIX)"]),
  ("test/arsinh.success", ["test/arsinh$(BINSUFFIX)"]),
  ("test/artanh.success", ["test/artanh$(BINSUFFIX)"]),
  ("test/codec.success", ["test/codec$(BINSUFFIX)"]),
  ("test/constants.success", ["test/constants$(BINSUFFIX)"]),
  ("test/conversion.success", ["test/conversion$(BINSUFFIX)"]),
  ("test/cos.success", ["test/cos$(BINSUFFIX)"]),
  ("test/cosh.success", ["test/cosh$(BINSUFFIX)"]),
  ("test/cot.success", ["test/cot$(BINSUFFIX)"]),
  ("test/coth.success", ["test/coth$(BINSUFFIX)"]),
  ("test/csc.success", ["test/csc$(BINSUFFIX)"]),
  ("test/csch.success", ["test/csch$(BINSUFFIX)"]),
  ("test/division.success", ["test/division$(BINSUFFIX)"]),
  ("test/exp.success", ["test/exp$(BINSUFFIX)"]),
  ("test/hypotenuse.success", ["test/hypotenuse$(BINSUFFIX)"]),
  ("test/integer_power.success", ["test/integer_power$(BINSUFFIX)"]),
  ("test/inversion.success", ["test/inversion$(BINSUFFIX)"]),
  ("test/lb.success", ["test/lb$(BINSUFFIX)"]),
  ("test/lg.success", ["test/lg$(BINSUFFIX)"]),
  ("test/ln.success", ["test/ln$(BINSUFFIX)"]),
  ("test/multiplication.success", ["test/multiplication$(BINSUFFIX)"]),
  ("test/power.success", ["test/power$(BINSUFFIX)"]),
  ("test/precision.success", ["test/precision$(BINSUFFIX)"]),
  ("test/root.success", ["test/root$(BINSUFFIX)"]),
  ("test/sec.success", ["test/sec$(BINSUFFIX)"]),
  ("test/sech.success", ["test/sech$(BINSUFFIX)"]),
  ("test/sign.success", ["test/sign$(BINSUFFIX)"]),
  ("test/sin.success", ["test/sin$(BINSUFFIX)"]),
  ("test/sinh.success", ["test/sinh$(BINSUFFIX)"]),
  ("test/square_root.success", ["test/square_root$(BINSUFFIX)"]),
  ("test/subtraction.success", ["test/subtraction$(BINSUFFIX)"]),
  ("test/tan.success", ["test/tan$(BINSUFFIX)"]),
  ("test/tanh.success", ["test/tanh$(BINSUFFIX)"])]

/-- All rules for the files that `make`, `make example` and `make test` write, other than manual pages: Makefile:735-827 (objects), 829 (libraries),
831-926. -/
def rules : List (String × List String) :=
  objectRules.map (fun r => (r.1 ++ ".o", r.2)) ++
  [("$(ANAME)", srcNames.map (· ++ ".o")), ("$(SONAME)", srcNames.map (· ++ ".o"))] ++ programRules ++ testRules

/-- A file of the source tree, or one that is written: a page or another file. -/
inductive File
  | plain (name : String) | script (f : Fn) | template (t : Template) | page (f : Fn)
  deriving DecidableEq, Repr

/-- The arguments of `rm -f` in `clean` (Makefile:1285-1286). -/
def cleaned : List File :=
  (exampleNames.map (· ++ ".o") ++ ["example/util.o"] ++ exampleNames.map (· ++ "$(BINSUFFIX)") ++ srcNames.map (· ++ ".o") ++ testNames.map (· ++ ".o") ++
    ["test/util.o"] ++ testNames.map (· ++ "$(BINSUFFIX)") ++ testNames.map (· ++ ".success") ++ ["$(ANAME)", "$(SONAME)"]).map .plain ++
  man3.map .page ++ [.plain "man/libtakum.7"]

/-! ## dist -/

/-- Makefile:116-119, `MAN_TEMPLATE`. -/
def manTemplate : List Template := [.fromFloat, .toFloat, .mathFunction]

/-- A command of `dist`. `cp` has the sources and the directory in the package, `""` for the package itself. -/
inductive Cmd
  | mkdir (dir : String) | cp (sources : List File) (dir : String)

/-- `DATA`, which the Makefile does not define: expanded to nothing. -/
def dataFiles : List File := []

/-- The commands of `dist` before the archive is made (Makefile:1289-1298). -/
def dist : List Cmd :=
  [.mkdir "", .mkdir "example", .mkdir "man", .mkdir "man/template", .mkdir "src", .mkdir "test",
   .cp (["config.mk", "configure", "takum.h", "LICENSE", "Makefile", "README"].map .plain) "",
   .cp dataFiles "data",
   .cp ((exampleNames.map (· ++ ".c") ++ ["example/util.c", "example/util.h"]).map .plain) "example",
   .cp (man3.map .script ++ [.plain "man/libtakum.sh"]) "man",
   .cp (manTemplate.map .template) "man/template",
   .cp ((srcNames.map (· ++ ".c") ++ ["src/codec.h", "src/util.h"]).map .plain) "src",
   .cp ((testNames.map (· ++ ".c") ++ ["test/util.c", "test/util.h"]).map .plain) "test"]

/-- The package while it is made: its directories and the files in it. -/
structure Package where
  dirs : List String
  files : List (String × File)

/-- A command; `none` when it fails. `mkdir` needs a directory that does not exist; `cp` needs at least one source beside the directory, all sources and
the directory. -/
def Cmd.run (tree : List File) (p : Package) : Cmd → Option Package
  | .mkdir d => if d ∈ p.dirs then none else some ⟨d :: p.dirs, p.files⟩
  | .cp l d => if l ≠ [] ∧ (∀ x ∈ l, x ∈ tree) ∧ d ∈ p.dirs then some ⟨p.dirs, p.files ++ l.map (d, ·)⟩ else none

/-- The commands one after the other, on a package that `rm -rf` has removed (Makefile:1288); make stops at the first one that fails. -/
def runAll (tree : List File) (cmds : List Cmd) : Option Package := cmds.foldlM (Cmd.run tree) ⟨[], []⟩

/-- The files of the source tree that are no scripts: the files at the top, the C files and headers; and man/libtakum.sh. -/
def plainTree : List String :=
  [".clang-format", "LICENSE", "Makefile", "README.md", "config.mk", "configure", "takum.h", "man/libtakum.sh"] ++ includes.map Prod.fst

/-- The source tree: the scripts of the manual pages (one for each function of takum.h) and the templates come on top. -/
def tree : List File :=
  plainTree.map .plain ++ header.map (fun p => .script p.fn) ++ [.template .mathFunction, .template .conversion, .template .fromFloat, .template .toFloat]

end Takum.Make
