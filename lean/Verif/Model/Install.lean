import Verif.Model.Makefile
import Verif.Model.Operators

/-!
# config.mk, configure, and the recipes `install` and `uninstall` of the Makefile

Directories are names of their own (`LIBPREFIX` and so on, with `DESTDIR`); they are taken to be different and to exist (`mkdir -p`). The names of the files
are lists of parts, which are separated by dots in the file system, so that `libtakum.so.1.0` is `[.str "libtakum", .str "so", .num 1, .num 0]`. `ldconfig`
is left out. A path that is written is replaced, also when it was a link.
-/

namespace Takum.Install
open Takum.Iface

/-- A part of the name of a file. -/
inductive Part
  | str (s : String) | num (n : ℕ)
  deriving DecidableEq, Repr

/-- The directories of the recipes (config.mk:4-10): `LICPREFIX/libtakum`, `MANPREFIX/man3`, `MANPREFIX/man7`, `LIBPREFIX`, `INCPREFIX`, `PCPREFIX`. -/
inductive Dir
  | lic | man3 | man7 | lib | inc | pc
  deriving DecidableEq, Repr

/-- The path of an installed file. -/
abbrev Path := Dir × List Part

/-- What a path holds: a copy of a file of the source tree, a symbolic link to a name in the same directory, or another file. -/
inductive Node
  | copy (name : List Part) | link (target : List Part) | other (n : ℕ)
  deriving DecidableEq, Repr

/-- The installed system. -/
abbrev FS := Path → Option Node

/-- Makefile:6-8, the version. -/
structure Version where
  major : ℕ
  minor : ℕ
  patch : ℕ

/-- The variables of config.mk that the recipes use (config.mk:4-15, 30): the names of the two libraries, `SOSYMLINK`, whether `PCPREFIX` is set. -/
structure Config where
  aname : List Part
  soname : List Part
  symlink : Bool
  pc : Bool

/-- `cp`, `printf >`, `ln -sf`: the path is replaced. -/
def put (p : Path) (n : Node) (fs : FS) : FS := fun q => if q = p then some n else fs q

/-- `rm -f`. -/
def rm (p : Path) (fs : FS) : FS := fun q => if q = p then none else fs q

/-- The loop `i=0; while [ "$i" -le $(VERSION_MINOR) ]; do ...; i=$((i+1)); done` (Makefile:1264, 1278). -/
def loop (minor : ℕ) (body : ℕ → FS → FS) (i : ℕ) (fs : FS) : FS :=
  if i ≤ minor then loop minor body (i + 1) (body i fs) else fs
  termination_by minor + 1 - i

/-- The name of a page of section 3, `NAME.3`. -/
def pageName (f : Fn) : List Part :=
  [.str ("takum" ++ (if f.k = .lin then "_linear" else "") ++ toString f.w.n ++ "_" ++ f.base), .num 3]

/-- `libtakum.so.$(VERSION_MAJOR).$i`. -/
def soMinor (v : Version) (i : ℕ) : List Part := [.str "libtakum", .str "so", .num v.major, .num i]
/-- `libtakum.so.$(VERSION_MAJOR)`. -/
def soMajor (v : Version) : List Part := [.str "libtakum", .str "so", .num v.major]
/-- `libtakum.so`. -/
def soPlain : List Part := [.str "libtakum", .str "so"]

/-- Makefile:1253-1269, `install`. -/
def install (c : Config) (v : Version) (fs : FS) : FS :=
  let fs := put (.lic, [.str "LICENSE"]) (.copy [.str "LICENSE"]) fs
  let fs := Make.man3.foldl (fun fs f => put (.man3, pageName f) (.copy (pageName f)) fs) fs
  let fs := put (.man7, [.str "libtakum", .num 7]) (.copy [.str "libtakum", .num 7]) fs
  let fs := put (.lib, c.aname) (.copy c.aname) fs
  let fs := put (.lib, c.soname) (.copy c.soname) fs
  let fs := if c.symlink then loop v.minor (fun i => put (.lib, soMinor v i) (.link c.soname)) 0 fs else fs
  let fs := if c.symlink then put (.lib, soMajor v) (.link c.soname) fs else fs
  let fs := if c.symlink then put (.lib, soPlain) (.link c.soname) fs else fs
  let fs := put (.inc, [.str "takum", .str "h"]) (.copy [.str "takum", .str "h"]) fs
  if c.pc then put (.pc, [.str "libtakum", .str "pc"]) (.copy [.str "libtakum", .str "pc"]) fs else fs

/-- Makefile:1272-1274, the commands of `uninstall` up to the license. -/
def uninstallFirst (fs : FS) : FS :=
  let fs := Make.man3.foldl (fun fs f => rm (.man3, pageName f) fs) fs
  let fs := rm (.man7, [.str "libtakum", .num 7]) fs
  rm (.lic, [.str "LICENSE"]) fs

/-- Makefile:1276-1283, the commands of `uninstall` after `rmdir`. -/
def uninstallRest (c : Config) (v : Version) (fs : FS) : FS :=
  let fs := rm (.lib, c.aname) fs
  let fs := rm (.lib, c.soname) fs
  let fs := if c.symlink then loop v.minor (fun i => rm (.lib, soMinor v i)) 0 fs else fs
  let fs := if c.symlink then rm (.lib, soMajor v) fs else fs
  let fs := if c.symlink then rm (.lib, soPlain) fs else fs
  let fs := rm (.inc, [.str "takum", .str "h"]) fs
  if c.pc then rm (.pc, [.str "libtakum", .str "pc"]) fs else fs

open Classical in
/-- Makefile:1271-1283, `uninstall`. `rmdir` (Makefile:1275) fails unless the directory of the license is empty, and make stops at the first command that
fails. The directory exists (`install` has made it). -/
noncomputable def uninstall (c : Config) (v : Version) (fs : FS) : FS :=
  if ∀ n, uninstallFirst fs (.lic, n) = none then uninstallRest c v (uninstallFirst fs) else uninstallFirst fs

/-! ## configure -/

/-- configure:14, 23, 31, 39: the systems with a preset. -/
inductive System
  | unix | openbsd | darwin | windows
  deriving DecidableEq, Repr

/-- What `replace_line` prints for each variable (configure:9, 16-45): the variable, the alignment, the value. -/
def preset : System → List (String × String × String)
  | .unix => [("ANAME", "    ", "libtakum.a"), ("SONAME", "   ", "libtakum.so.$(VERSION_MAJOR).$(VERSION_MINOR).$(VERSION_PATCH)"), ("BINSUFFIX", "", ""),
      ("SOFLAGS", "  ", "-shared -Wl,--soname=libtakum.so.$(VERSION_MAJOR).$(VERSION_MINOR)"), ("SOSYMLINK", "", "true"), ("LDCONFIG", "", "ldconfig")]
  | .openbsd => [("ANAME", "    ", "libtakum.a"), ("SONAME", "   ", "libtakum.so.$(VERSION_MAJOR).$(VERSION_MINOR)"), ("BINSUFFIX", "", ""),
      ("SOFLAGS", "  ", "-shared"), ("SOSYMLINK", "", "false"), ("LDCONFIG", "", "")]
  | .darwin => [("ANAME", "    ", "libtakum.a"), ("SONAME", "   ", "libtakum.$(VERSION_MAJOR).dylib"), ("BINSUFFIX", "", ""),
      ("SOFLAGS", "  ", "-dynamiclib -install_name libtakum.$(VERSION_MAJOR).dylib -current_version $(VERSION_MAJOR).$(VERSION_MINOR).$(VERSION_PATCH) -compatibility_version $(VERSION_MAJOR).$(VERSION_MINOR).0"),
      ("SOSYMLINK", "", "false"), ("LDCONFIG", "", "")]
  | .windows => [("ANAME", "    ", "libtakum.lib"), ("SONAME", "   ", "libtakum.dll"), ("BINSUFFIX", "", ".exe"),
      ("SOFLAGS", "  ", "-shared"), ("SOSYMLINK", "", "false"), ("LDCONFIG", "", "")]

/-- The names of the libraries and the links of each preset (the values of `preset`, expanded); `PCPREFIX` is set in config.mk:10. -/
def System.config (v : Version) : System → Config
  | .unix => ⟨[.str "libtakum", .str "a"], [.str "libtakum", .str "so", .num v.major, .num v.minor, .num v.patch], true, true⟩
  | .openbsd => ⟨[.str "libtakum", .str "a"], [.str "libtakum", .str "so", .num v.major, .num v.minor], false, true⟩
  | .darwin => ⟨[.str "libtakum", .str "a"], [.str "libtakum", .num v.major, .str "dylib"], false, true⟩
  | .windows => ⟨[.str "libtakum", .str "lib"], [.str "libtakum", .str "dll"], false, true⟩

/-- The regular expression `^VAR[ ]*=` (configure:9). -/
def matchLine (var line : List Char) : Bool :=
  match Calc.strip var line with
  | none => false
  | some r => (r.dropWhile (· = ' ')).head? = some '='

/-- configure:4-11, `replace_line`: awk prints the new line in place of the lines that match. -/
def replaceLine (p : String × String × String) (file : List (List Char)) : List (List Char) :=
  file.map fun l => if matchLine p.1.toList l then p.1.toList ++ p.2.1.toList ++ " = ".toList ++ p.2.2.toList else l

/-- configure:13-51: the calls for a system. -/
def configure (s : System) (file : List (List Char)) : List (List Char) := (preset s).foldl (fun f p => replaceLine p f) file

/-- config.mk:1-38, the file as it is shipped. -/
def configMk : List String := [
  "# Customise below to fit your system (run ./configure for automatic presets)",
  "",
  "# paths (unset $PCPREFIX to not install a pkg-config-file)",
  "DESTDIR   =",
  "PREFIX    = /usr/local",
  "INCPREFIX = $(PREFIX)/include",
  "LIBPREFIX = $(PREFIX)/lib",
  "LICPREFIX = $(PREFIX)/share/licenses",
  "MANPREFIX = $(PREFIX)/share/man",
  "PCPREFIX  = $(LIBPREFIX)/pkgconfig",
  "",
  "# names",
  "ANAME     = libtakum.a",
  "SONAME    = libtakum.so.$(VERSION_MAJOR).$(VERSION_MINOR).$(VERSION_PATCH)",
  "BINSUFFIX = ",
  "",
  "# flags",
  "CPPFLAGS = -D_ISOC99_SOURCE",
  "CFLAGS   = -std=c99 -Os -Wall -Wextra -Wpedantic",
  "LDFLAGS  = -s",
  "LDLIBS = -lm",
  "",
  "BUILD_CPPFLAGS = $(CPPFLAGS)",
  "BUILD_CFLAGS   = $(CFLAGS)",
  "BUILD_LDFLAGS  = $(LDFLAGS)",
  "BUILD_LDLIBS  = $(LDLIBS)",
  "",
  "SHFLAGS   = -fPIC",
  "SOFLAGS   = -shared -Wl,--soname=libtakum.so.$(VERSION_MAJOR).$(VERSION_MINOR)",
  "SOSYMLINK = true",
  "",
  "# tools (unset $LDCONFIG to not call ldconfig(1) after install/uninstall)",
  "CC       = cc",
  "BUILD_CC = $(CC)",
  "AR       = ar",
  "RANLIB   = ranlib",
  "LDCONFIG = ldconfig",
  "SH       = sh"]

end Takum.Install
