import Verif.Model.Dist
import Verif.Props.Makefile
import Verif.Props.Install

/-!
# The package (C138); what the tests are made from, and cleaning up (C139)
-/

namespace Takum.Make
open Takum.Iface Takum.Man
open Takum.Calc (typeName)

/-! ## Specification -/

/-- The recipe with its two failing commands corrected: README.md in place of README, no DATA. -/
def distRepaired : List Cmd :=
  [.mkdir "", .mkdir "example", .mkdir "man", .mkdir "man/template", .mkdir "src", .mkdir "test",
   .cp (["config.mk", "configure", "takum.h", "LICENSE", "Makefile", "README.md"].map .plain) ""] ++ dist.drop 8

/-- The script or template is in the package. -/
def InPackage (p : Package) (n : Next) : Prop :=
  match n with
  | .script f => ("man", .script f) ∈ p.files
  | .template t => ("man/template", .template t) ∈ p.files

/-- A target is made from a file: the file is a prerequisite, or one of its prerequisites is made from the file. -/
inductive MadeFrom : String → String → Prop
  | step {t f : String} {l : List String} : (t, l) ∈ rules → f ∈ l → MadeFrom t f
  | trans {t g f : String} {l : List String} : (t, l) ∈ rules → g ∈ l → MadeFrom g f → MadeFrom t f

/-- What `make`, `make example` and `make test` ask for, other than manual pages. -/
def goals : List String := ["$(ANAME)", "$(SONAME)"] ++ exampleNames.map (· ++ "$(BINSUFFIX)") ++ testNames.map (· ++ ".success")

/-- A name of a file that `clean` removes, with the variables of the preset of a system replaced. -/
def Expanded (s : Install.System) (v : Install.Version) (n : String) (t : List Char) : Prop :=
  n = "$(ANAME)" ∧ t = Install.nameText (s.config v).aname ∨ n = "$(SONAME)" ∧ t = Install.nameText (s.config v).soname ∨
  (∃ x b, n = x ++ "$(BINSUFFIX)" ∧ Install.presetValue s "BINSUFFIX" = some b ∧ t = x.toList ++ b.toList) ∨
  ('$' ∉ n.toList ∧ t = n.toList)

/-- The directory of a file, by its name. -/
def dirOf : File → String
  | .plain s => String.ofList ((s.toList.reverse.dropWhile (· ≠ '/')).drop 1).reverse
  | .script _ => "man"
  | .template _ => "man/template"
  | .page _ => "man"

/-! ## Proof -/

/-- The files that the repaired recipe packs. -/
def packed : List (String × File) :=
  (["config.mk", "configure", "takum.h", "LICENSE", "Makefile", "README.md"].map (("", .plain ·)) : List (String × File)) ++
  ((exampleNames.map (· ++ ".c") ++ ["example/util.c", "example/util.h"]).map (("example", .plain ·)) : List (String × File)) ++
  ((man3.map .script ++ [.plain "man/libtakum.sh"] : List File).map (("man", ·)) : List (String × File)) ++
  (manTemplate.map (("man/template", .template ·)) : List (String × File)) ++
  ((srcNames.map (· ++ ".c") ++ ["src/codec.h", "src/util.h"]).map (("src", .plain ·)) : List (String × File)) ++
  ((testNames.map (· ++ ".c") ++ ["test/util.c", "test/util.h"]).map (("test", .plain ·)) : List (String × File))

theorem cp_ok {t : List File} {p : Package} {l : List File} {d : String} (h1 : l ≠ []) (h2 : ∀ x ∈ l, x ∈ t) (h3 : d ∈ p.dirs) :
    (Cmd.cp l d).run t p = some ⟨p.dirs, p.files ++ l.map (d, ·)⟩ := if_pos ⟨h1, h2, h3⟩

theorem cp_nil (t : List File) (p : Package) (d : String) : (Cmd.cp [] d).run t p = none := by simp [Cmd.run]

theorem cp_missing {t : List File} {p : Package} {l : List File} {d : String} {x : File} (hx : x ∈ l) (ht : x ∉ t) : (Cmd.cp l d).run t p = none :=
  if_neg fun h => ht (h.2.1 x hx)

theorem plain_sub {l : List String} (h : (l.all fun x => plainTree.contains x) = true) : ∀ x ∈ l.map File.plain, x ∈ tree := by
  intro x hx
  obtain ⟨s, hs, rfl⟩ := List.mem_map.mp hx
  have := List.all_eq_true.mp h s hs
  rw [List.contains_iff_mem] at this
  exact List.mem_append_left _ (List.mem_append_left _ (List.mem_map_of_mem this))

theorem script_mem (f : Fn) : File.script f ∈ tree ↔ f ∈ man3 := by
  rw [← (List.isPerm_iff.mp Install.names_perm).mem_iff]
  simp [tree]

theorem sub1 : (["config.mk", "configure", "takum.h", "LICENSE", "Makefile", "README.md"].all fun x => plainTree.contains x) = true := by decide +kernel
theorem sub2 : ((exampleNames.map (· ++ ".c") ++ ["example/util.c", "example/util.h"]).all fun x => plainTree.contains x) = true := by decide +kernel
theorem sub3 : ((srcNames.map (· ++ ".c") ++ ["src/codec.h", "src/util.h"]).all fun x => plainTree.contains x) = true := by decide +kernel
theorem sub4 : ((testNames.map (· ++ ".c") ++ ["test/util.c", "test/util.h"]).all fun x => plainTree.contains x) = true := by decide +kernel

theorem mkdirs (t : List File) : [Cmd.mkdir "", .mkdir "example", .mkdir "man", .mkdir "man/template", .mkdir "src", .mkdir "test"].foldlM (Cmd.run t)
    ⟨[], []⟩ = some ⟨["test", "src", "man/template", "man", "example", ""], []⟩ := by simp [Cmd.run]

theorem repaired_eq : distRepaired = [Cmd.mkdir "", .mkdir "example", .mkdir "man", .mkdir "man/template", .mkdir "src", .mkdir "test"] ++ [
   .cp (["config.mk", "configure", "takum.h", "LICENSE", "Makefile", "README.md"].map .plain) "",
   .cp ((exampleNames.map (· ++ ".c") ++ ["example/util.c", "example/util.h"]).map .plain) "example",
   .cp (man3.map .script ++ [.plain "man/libtakum.sh"]) "man",
   .cp (manTemplate.map .template) "man/template",
   .cp ((srcNames.map (· ++ ".c") ++ ["src/codec.h", "src/util.h"]).map .plain) "src",
   .cp ((testNames.map (· ++ ".c") ++ ["test/util.c", "test/util.h"]).map .plain) "test"] := by
  simp only [distRepaired, dist, List.drop_succ_cons, List.drop_zero, List.cons_append, List.nil_append]

theorem run_repaired : runAll tree distRepaired = some ⟨["test", "src", "man/template", "man", "example", ""], packed⟩ := by
  have hm : ∀ x ∈ man3.map File.script ++ [.plain "man/libtakum.sh"], x ∈ tree := by
    intro x hx
    rcases List.mem_append.mp hx with hx | hx
    · obtain ⟨f, hf, rfl⟩ := List.mem_map.mp hx
      exact (script_mem f).mpr hf
    · rw [List.mem_singleton.mp hx]
      exact plain_sub (l := ["man/libtakum.sh"]) (by decide +kernel) _ (by simp)
  have ht : ∀ x ∈ manTemplate.map File.template, x ∈ tree := by
    intro x hx
    refine List.mem_append_right _ ?_
    revert x
    decide
  rw [repaired_eq, runAll, List.foldlM_append, mkdirs, Option.bind_eq_bind, Option.bind_some]
  rw [List.foldlM_cons, cp_ok (by simp) (plain_sub sub1) (by simp), Option.bind_eq_bind, Option.bind_some,
    List.foldlM_cons, cp_ok (by simp) (plain_sub sub2) (by simp), Option.bind_eq_bind, Option.bind_some,
    List.foldlM_cons, cp_ok (by simp) hm (by simp), Option.bind_eq_bind, Option.bind_some,
    List.foldlM_cons, cp_ok (by simp [manTemplate]) ht (by simp), Option.bind_eq_bind, Option.bind_some,
    List.foldlM_cons, cp_ok (by simp) (plain_sub sub3) (by simp), Option.bind_eq_bind, Option.bind_some,
    List.foldlM_cons, cp_ok (by simp) (plain_sub sub4) (by simp), Option.bind_eq_bind, Option.bind_some]
  simp only [packed, List.map_map, List.nil_append]
  rfl

theorem foldlM_none (t : List File) (l r : List Cmd) (c : Cmd) (hc : ∀ p, c.run t p = none) (p : Package) :
    (l ++ c :: r).foldlM (Cmd.run t) p = none := by
  rw [List.foldlM_append]
  cases l.foldlM (Cmd.run t) p with
  | none => rfl
  | some q => show (c :: r).foldlM (Cmd.run t) q = none; rw [List.foldlM_cons, hc]; rfl

/-! The rules -/

theorem programs_eq : programRules = exampleNames.map (fun t => (t ++ "$(BINSUFFIX)", [t ++ ".o", "example/util.o", "$(ANAME)"])) ++
    testNames.map (fun t => (t ++ "$(BINSUFFIX)", [t ++ ".o", "test/util.o", "$(ANAME)"])) := by decide +kernel

theorem tests_eq : testRules = testNames.map fun t => (t ++ ".success", [t ++ "$(BINSUFFIX)"]) := by decide +kernel

/-- The files that several objects have among their prerequisites. -/
def common : List String := ["Makefile", "config.mk", "takum.h", "src/util.h", "test/util.h", "example/util.h"]

theorem objects_common : (objectRules.all fun r => r.2.all fun x => x == r.1 ++ ".c" || common.contains x) = true := by decide +kernel

theorem objects_ruled : (srcNames.all fun x => unruled.contains x || objectRules.any fun r => r.1 == x && r.2.contains (x ++ ".c")) = true := by
  decide +kernel

theorem unruled_none : (unruled.all fun x => objectRules.all fun r => !(r.1 == x)) = true := by decide +kernel

theorem objects_tests : ((testNames ++ ["test/util"]).all fun x => objectRules.any fun r => r.1 == x && r.2.contains (x ++ ".c")) = true := by
  decide +kernel

/-- The last letter of a name. -/
def lastOf (s : String) : Option Char := s.toList.getLast?

theorem tree_last : (plainTree.all fun s => [some 't', some 'E', some 'e', some 'd', some 'k', some 'h', some 'c'].contains (lastOf s)) = true := by
  decide +kernel

theorem lastOf_append (s t : String) (h : t ≠ "") : lastOf (s ++ t) = lastOf t := by
  have : t.toList ≠ [] := by simpa using h
  rw [lastOf, lastOf, String.toList_append, List.getLast?_append]
  cases hl : t.toList.getLast? with
  | none => exact absurd (List.getLast?_eq_none_iff.mp hl) this
  | some c => rfl

/-- The packed files other than the scripts of the functions and the templates. -/
def packedPlain : List (String × String) :=
  ["config.mk", "configure", "takum.h", "LICENSE", "Makefile", "README.md"].map (("", ·)) ++
  (exampleNames.map (· ++ ".c") ++ ["example/util.c", "example/util.h"]).map (("example", ·)) ++ [("man", "man/libtakum.sh")] ++
  (srcNames.map (· ++ ".c") ++ ["src/codec.h", "src/util.h"]).map (("src", ·)) ++
  (testNames.map (· ++ ".c") ++ ["test/util.c", "test/util.h"]).map (("test", ·))

theorem gen_plain (A B C D : List String) (S : List Fn) (T : List Template) (d s : String) :
    (d, File.plain s) ∈ (A.map (("", .plain ·)) : List (String × File)) ++ (B.map (("example", .plain ·)) : List (String × File)) ++
      ((S.map .script ++ [.plain "man/libtakum.sh"] : List File).map (("man", ·)) : List (String × File)) ++
      (T.map (("man/template", .template ·)) : List (String × File)) ++ (C.map (("src", .plain ·)) : List (String × File)) ++
      (D.map (("test", .plain ·)) : List (String × File)) ↔
    (d, s) ∈ A.map (("", ·)) ++ B.map (("example", ·)) ++ [("man", "man/libtakum.sh")] ++ C.map (("src", ·)) ++ D.map (("test", ·)) := by
  simp
  try tauto

theorem gen_script (A B C D : List String) (S : List Fn) (T : List Template) (d : String) (f : Fn) :
    (d, File.script f) ∈ (A.map (("", .plain ·)) : List (String × File)) ++ (B.map (("example", .plain ·)) : List (String × File)) ++
      ((S.map .script ++ [.plain "man/libtakum.sh"] : List File).map (("man", ·)) : List (String × File)) ++
      (T.map (("man/template", .template ·)) : List (String × File)) ++ (C.map (("src", .plain ·)) : List (String × File)) ++
      (D.map (("test", .plain ·)) : List (String × File)) ↔ f ∈ S ∧ d = "man" := by
  simp
  try tauto

theorem gen_template (A B C D : List String) (S : List Fn) (T : List Template) (d : String) (t : Template) :
    (d, File.template t) ∈ (A.map (("", .plain ·)) : List (String × File)) ++ (B.map (("example", .plain ·)) : List (String × File)) ++
      ((S.map .script ++ [.plain "man/libtakum.sh"] : List File).map (("man", ·)) : List (String × File)) ++
      (T.map (("man/template", .template ·)) : List (String × File)) ++ (C.map (("src", .plain ·)) : List (String × File)) ++
      (D.map (("test", .plain ·)) : List (String × File)) ↔ t ∈ T ∧ d = "man/template" := by
  simp
  try tauto

theorem gen_page (A B C D : List String) (S : List Fn) (T : List Template) (d : String) (f : Fn) :
    (d, File.page f) ∉ (A.map (("", .plain ·)) : List (String × File)) ++ (B.map (("example", .plain ·)) : List (String × File)) ++
      ((S.map .script ++ [.plain "man/libtakum.sh"] : List File).map (("man", ·)) : List (String × File)) ++
      (T.map (("man/template", .template ·)) : List (String × File)) ++ (C.map (("src", .plain ·)) : List (String × File)) ++
      (D.map (("test", .plain ·)) : List (String × File)) := by
  simp

theorem plain_perm : packedPlain.isPerm ((plainTree.filter (· ≠ ".clang-format")).map fun s => (dirOf (.plain s), s)) = true := by decide +kernel

theorem plain_mem (s : String) : File.plain s ∈ tree ↔ s ∈ plainTree := by simp [tree]

theorem packed_mem (d : String) (x : File) :
    (d, x) ∈ packed ↔ x ∈ tree ∧ x ≠ .plain ".clang-format" ∧ x ≠ .template .conversion ∧ d = dirOf x := by
  cases x with
  | plain s =>
    rw [packed, gen_plain, plain_mem]
    show (d, s) ∈ packedPlain ↔ _
    rw [(List.isPerm_iff.mp plain_perm).mem_iff]
    simp only [List.mem_map, List.mem_filter, Prod.mk.injEq, decide_eq_true_eq, ne_eq, File.plain.injEq, reduceCtorEq, not_false_eq_true, true_and]
    constructor
    · rintro ⟨a, ⟨h1, h2⟩, h3, rfl⟩; exact ⟨h1, h2, h3.symm⟩
    · rintro ⟨h1, h2, h3⟩; exact ⟨s, ⟨h1, h2⟩, h3.symm, rfl⟩
  | script f =>
    rw [packed, gen_script, script_mem]
    simp [dirOf]
  | template t =>
    rw [packed, gen_template]
    cases t <;> simp [manTemplate, dirOf, tree]
  | page f =>
    rw [packed]
    exact ⟨fun h => absurd h (gen_page _ _ _ _ _ _ _ _), fun h => absurd h.1 (by simp [tree])⟩

/-- The function is a conversion between takums. -/
def conversionB (f : Fn) : Bool :=
  [W.w8, .w16, .w32, .w64].any fun w => f.base == "from_" ++ typeName .log w || f.base == "from_" ++ typeName .lin w

theorem conversionB_iff (f : Fn) : conversionB f = true ↔ ∃ k w, f.base = "from_" ++ typeName k w := by
  simp only [conversionB, List.any_eq_true, Bool.or_eq_true, beq_iff_eq]
  constructor
  · rintro ⟨w, _, h | h⟩
    · exact ⟨_, w, h⟩
    · exact ⟨_, w, h⟩
  · rintro ⟨k, w, h⟩
    refine ⟨w, by cases w <;> simp, ?_⟩
    cases k
    · exact Or.inl h
    · exact Or.inr h

/-- The scripts of conversions end in the template for conversions, the others in another one. -/
def chainB (f : Fn) : Bool :=
  match script f with
  | none => false
  | some s => match s.next with
    | .template t => decide (t = .conversion) == conversionB f
    | .script g => man3.contains g && conversionB g == conversionB f

theorem chains : (man3.all chainB) = true := by decide +kernel

theorem chain_runs {p : Package} (hp : ∀ d x, (d, x) ∈ p.files ↔ x ∈ tree ∧ x ≠ .plain ".clang-format" ∧ x ≠ .template .conversion ∧ d = dirOf x)
    {f : Fn} {n : Next} (hr : Runs f n) : f ∈ man3 → conversionB f = false → InPackage p n := by
  induction hr with
  | self f => exact fun hf _ => (hp _ _).mpr ⟨(script_mem f).mpr hf, by simp, by simp, rfl⟩
  | @template f s t hs ht =>
    intro hf hc
    have h := List.all_eq_true.mp chains f hf
    simp only [chainB, hs, ht, hc, beq_iff_eq, decide_eq_false_iff_not] at h
    refine (hp _ _).mpr ⟨?_, by simp, by simpa using h, rfl⟩
    cases t <;> simp [tree]
  | @call f g s n hs ht _ ih =>
    intro hf hc
    have h := List.all_eq_true.mp chains f hf
    simp only [chainB, hs, ht, hc, Bool.and_eq_true, beq_iff_eq, List.contains_iff_mem] at h
    exact ih h.1 h.2

/-- The chain of scripts reaches the template for conversions within `n` steps. -/
def reachB : ℕ → Fn → Bool
  | 0, _ => false
  | n + 1, f => match script f with
    | none => false
    | some s => match s.next with
      | .template t => decide (t = .conversion)
      | .script g => reachB n g

theorem reach_runs : ∀ {n : ℕ} {f : Fn}, reachB n f = true → Runs f (.template .conversion)
  | 0, _, h => by cases h
  | n + 1, f, h => by
    rw [reachB] at h
    cases hs : script f with
    | none => rw [hs] at h; cases h
    | some s =>
      simp only [hs] at h
      cases ht : s.next with
      | template t =>
        simp only [ht, decide_eq_true_eq] at h
        subst h
        exact .template hs ht
      | script g =>
        simp only [ht] at h
        exact .call hs ht (reach_runs h)

theorem reaches : ((man3.filter conversionB).all (reachB 3)) = true := by decide +kernel

/-! ## C138 -/

/-- `make dist` fails, whatever files there are: `DATA` is not defined, so that `cp` has one argument. -/
theorem dist_refuted (t : List File) : runAll t dist = none :=
  foldlM_none t (dist.take 7) (dist.drop 8) (.cp [] "data") (fun p => cp_nil t p _) ⟨[], []⟩

/-- Without that command it fails as well: there is no README. -/
theorem dist_readme : File.plain "README" ∉ tree ∧ runAll tree (dist.take 7) = none := by
  have h : File.plain "README" ∉ tree := by
    rw [plain_mem]; decide +kernel
  exact ⟨h, foldlM_none tree (dist.take 6) [] (.cp (["config.mk", "configure", "takum.h", "LICENSE", "Makefile", "README"].map .plain) "")
    (fun p => cp_missing (x := .plain "README") (by simp) h) ⟨[], []⟩⟩

/-- With these two commands repaired it succeeds, and the package has all files of the source tree in their places except for .clang-format and one of the
templates of the manual pages. -/
theorem dist_partial : ∃ p, runAll tree distRepaired = some p ∧
    ∀ d x, (d, x) ∈ p.files ↔ x ∈ tree ∧ x ≠ .plain ".clang-format" ∧ x ≠ .template .conversion ∧ d = dirOf x :=
  ⟨_, run_repaired, packed_mem⟩

/-- Of the manual pages, those of the conversions between takums cannot be written from the package; all others can. -/
theorem dist_pages : ∃ p, runAll tree distRepaired = some p ∧
    ∀ q ∈ header, (∀ n, Runs q.fn n → InPackage p n) ↔ ¬ ∃ k w, q.fn.base = "from_" ++ typeName k w := by
  refine ⟨_, run_repaired, fun q hq => ?_⟩
  have hm : q.fn ∈ man3 := (List.isPerm_iff.mp Install.names_perm).mem_iff.mp (List.mem_map_of_mem hq)
  rw [← conversionB_iff]
  constructor
  · intro h hc
    have := h _ (reach_runs (List.all_eq_true.mp reaches q.fn (List.mem_filter.mpr ⟨hm, hc⟩)))
    exact ((packed_mem _ _).mp this).2.2.1 rfl
  · intro hc n hr
    exact chain_runs packed_mem hr hm (by simpa using hc)

example : ∃ q ∈ header, ∃ k w, q.fn.base = "from_" ++ typeName k w := by
  have h : (header.any fun p => decide (p.fn = ⟨.lin, .w16, "from_takum8"⟩)) = true := by decide +kernel
  obtain ⟨p, hp, h⟩ := List.any_eq_true.mp h
  exact ⟨p, hp, .log, .w8, by rw [of_decide_eq_true h]; decide +kernel⟩

/-! ## C139 -/

theorem mem_object {x : String} {l : List String} (h : (x, l) ∈ objectRules) : (x ++ ".o", l) ∈ rules :=
  List.mem_append_left _ (List.mem_append_left _ (List.mem_append_left _ (List.mem_map_of_mem (f := fun r : String × List String => (r.1 ++ ".o", r.2)) h)))

theorem mem_library : ("$(ANAME)", srcNames.map (· ++ ".o")) ∈ rules :=
  List.mem_append_left _ (List.mem_append_left _ (List.mem_append_right _ List.mem_cons_self))

theorem mem_program {t : String} (h : t ∈ testNames) : (t ++ "$(BINSUFFIX)", [t ++ ".o", "test/util.o", "$(ANAME)"]) ∈ rules :=
  List.mem_append_left _ (List.mem_append_right _ (by
    rw [programs_eq]; exact List.mem_append_right _ (List.mem_map_of_mem (f := fun t => (t ++ "$(BINSUFFIX)", [t ++ ".o", "test/util.o", "$(ANAME)"])) h)))

theorem mem_test {t : String} (h : t ∈ testNames) : (t ++ ".success", [t ++ "$(BINSUFFIX)"]) ∈ rules :=
  List.mem_append_right _ (by rw [tests_eq]; exact List.mem_map_of_mem (f := fun t => (t ++ ".success", [t ++ "$(BINSUFFIX)"])) h)

/-- Which forms the rules have. -/
theorem rules_cases {t : String} {l : List String} (h : (t, l) ∈ rules) :
    (∃ x, t = x ++ ".o" ∧ (x, l) ∈ objectRules) ∨ ((t = "$(ANAME)" ∨ t = "$(SONAME)") ∧ l = srcNames.map (· ++ ".o")) ∨
    (∃ x, t = x ++ "$(BINSUFFIX)" ∧ (x ∈ exampleNames ∧ l = [x ++ ".o", "example/util.o", "$(ANAME)"] ∨
      x ∈ testNames ∧ l = [x ++ ".o", "test/util.o", "$(ANAME)"])) ∨
    ∃ x ∈ testNames, t = x ++ ".success" ∧ l = [x ++ "$(BINSUFFIX)"] := by
  rcases List.mem_append.mp h with h | h
  · rcases List.mem_append.mp h with h | h
    · rcases List.mem_append.mp h with h | h
      · obtain ⟨r, hr, e⟩ := List.mem_map.mp h
        cases e
        exact Or.inl ⟨_, rfl, hr⟩
      · refine Or.inr (Or.inl ?_)
        simp only [List.mem_cons, Prod.mk.injEq, List.not_mem_nil, or_false] at h
        tauto
    · refine Or.inr (Or.inr (Or.inl ?_))
      rw [programs_eq] at h
      rcases List.mem_append.mp h with h | h
      · obtain ⟨x, hx, e⟩ := List.mem_map.mp h
        cases e
        exact ⟨x, rfl, Or.inl ⟨hx, rfl⟩⟩
      · obtain ⟨x, hx, e⟩ := List.mem_map.mp h
        cases e
        exact ⟨x, rfl, Or.inr ⟨hx, rfl⟩⟩
  · rw [tests_eq] at h
    obtain ⟨x, hx, e⟩ := List.mem_map.mp h
    cases e
    exact Or.inr (Or.inr (Or.inr ⟨x, hx, rfl, rfl⟩))

theorem append_inj {x y e : String} (h : x ++ e = y ++ e) : x = y := by
  have := congrArg String.toList h
  rw [String.toList_append, String.toList_append] at this
  exact String.toList_inj.mp (List.append_cancel_right this)

/-- A C file is a prerequisite only of its object. -/
theorem source_rule {t x : String} {l : List String} (h : (t, l) ∈ rules) (hx : x ++ ".c" ∈ l) : t = x ++ ".o" ∧ (x, l) ∈ objectRules := by
  have nc : ∀ y e : String, e ≠ "" → lastOf e ≠ some 'c' → x ++ ".c" ≠ y ++ e := by
    intro y e he hl h
    have := congrArg lastOf h
    rw [lastOf_append _ _ (by decide), lastOf_append _ _ he] at this
    exact hl (this.symm.trans (by decide +kernel))
  have nd : ∀ z : String, lastOf z ≠ some 'c' → x ++ ".c" ≠ z := by
    rintro z hz rfl
    rw [lastOf_append _ _ (by decide)] at hz
    exact hz (by decide +kernel)
  rcases rules_cases h with ⟨y, rfl, hy⟩ | ⟨_, rfl⟩ | ⟨y, rfl, ⟨_, rfl⟩ | ⟨_, rfl⟩⟩ | ⟨y, _, rfl, rfl⟩
  · have := List.all_eq_true.mp (List.all_eq_true.mp objects_common _ hy) _ hx
    rw [Bool.or_eq_true, beq_iff_eq, List.contains_iff_mem] at this
    rcases this with h | h
    · obtain rfl := append_inj h
      exact ⟨rfl, hy⟩
    · exfalso
      have : ∀ z ∈ common, lastOf z ≠ some 'c' := by decide +kernel
      exact nd _ (this _ h) rfl
  · obtain ⟨y, _, e⟩ := List.mem_map.mp hx
    exact absurd e.symm (nc y ".o" (by decide) (by decide +kernel))
  · simp only [List.mem_cons, List.not_mem_nil, or_false] at hx
    rcases hx with h | h | h
    · exact absurd h (nc y ".o" (by decide) (by decide +kernel))
    · exact absurd h (nd _ (by decide +kernel))
    · exact absurd h (nd _ (by decide +kernel))
  · simp only [List.mem_cons, List.not_mem_nil, or_false] at hx
    rcases hx with h | h | h
    · exact absurd h (nc y ".o" (by decide) (by decide +kernel))
    · exact absurd h (nd _ (by decide +kernel))
    · exact absurd h (nd _ (by decide +kernel))
  · simp only [List.mem_cons, List.not_mem_nil, or_false] at hx
    exact absurd hx (nc y "$(BINSUFFIX)" (by decide) (by decide +kernel))

theorem made_last {t f : String} (h : MadeFrom t f) : ∃ g l, (g, l) ∈ rules ∧ f ∈ l := by
  induction h with
  | step h hf => exact ⟨_, _, h, hf⟩
  | trans _ _ _ ih => exact ih

/-- A test is run again after a change of a source file of the library, except for the six files without a line in the Makefile: `make test` reports success
without having compiled them. -/
theorem make_test_partial (t : String) (ht : t ∈ testNames) (x : String) (hx : x ∈ srcNames) :
    MadeFrom (t ++ ".success") (x ++ ".c") ↔ x ∉ unruled := by
  constructor
  · intro h hu
    obtain ⟨g, l, hr, hl⟩ := made_last h
    have := (source_rule hr hl).2
    have := List.all_eq_true.mp (List.all_eq_true.mp unruled_none x hu) _ this
    simp at this
  · intro hu
    have := List.all_eq_true.mp objects_ruled x hx
    rw [Bool.or_eq_true, List.contains_iff_mem] at this
    obtain ⟨r, hr, h⟩ := List.any_eq_true.mp (this.resolve_left hu)
    rw [Bool.and_eq_true, beq_iff_eq, List.contains_iff_mem] at h
    obtain ⟨a, l⟩ := r
    obtain ⟨rfl, h⟩ := h
    exact .trans (mem_test ht) List.mem_cons_self (.trans (mem_program ht) (by simp) (.trans mem_library (List.mem_map_of_mem (f := (· ++ ".o")) hx)
      (.step (mem_object hr) h)))

theorem make_test_refuted : MadeFrom "test/sign.success" "src/sign.c" → False := by
  intro h
  exact (make_test_partial "test/sign" (by decide +kernel) "src/sign" (by decide +kernel)).mp h (by decide +kernel)

/-- A test is run again after a change of its own source or of the tests' helpers. -/
theorem make_test_own (t : String) (ht : t ∈ testNames) :
    MadeFrom (t ++ ".success") (t ++ ".c") ∧ MadeFrom (t ++ ".success") "test/util.c" := by
  have key : ∀ x ∈ testNames ++ ["test/util"], x ++ ".o" ∈ [t ++ ".o", "test/util.o", "$(ANAME)"] → MadeFrom (t ++ ".success") (x ++ ".c") := by
    intro x hx hm
    obtain ⟨r, hr, h⟩ := List.any_eq_true.mp (List.all_eq_true.mp objects_tests x hx)
    rw [Bool.and_eq_true, beq_iff_eq, List.contains_iff_mem] at h
    obtain ⟨a, l⟩ := r
    obtain ⟨rfl, h⟩ := h
    exact .trans (mem_test ht) List.mem_cons_self (.trans (mem_program ht) hm (.step (mem_object hr) h))
  exact ⟨key t (List.mem_append_left _ ht) (by simp), key "test/util" (by simp) (by
    rw [show "test/util" ++ ".o" = "test/util.o" by decide +kernel]; simp)⟩

/-- The removed files that are no pages. -/
def cleanedPlain : List String :=
  exampleNames.map (· ++ ".o") ++ ["example/util.o"] ++ exampleNames.map (· ++ "$(BINSUFFIX)") ++ srcNames.map (· ++ ".o") ++ testNames.map (· ++ ".o") ++
    ["test/util.o"] ++ testNames.map (· ++ "$(BINSUFFIX)") ++ testNames.map (· ++ ".success") ++ ["$(ANAME)", "$(SONAME)"]

theorem cleaned_mem (x : String) : File.plain x ∈ cleaned ↔ x ∈ cleanedPlain ∨ x = "man/libtakum.7" := by
  show File.plain x ∈ cleanedPlain.map .plain ++ man3.map .page ++ [.plain "man/libtakum.7"] ↔ _
  simp

theorem cleaned_cases {x : String} (h : x ∈ cleanedPlain) :
    (∃ y ∈ objects, x = y ++ ".o") ∨ (∃ y ∈ exampleNames ++ testNames, x = y ++ "$(BINSUFFIX)") ∨ (∃ y ∈ testNames, x = y ++ ".success") ∨
    x = "$(ANAME)" ∨ x = "$(SONAME)" := by
  have e1 : "example/util.o" = "example/util" ++ ".o" := by decide +kernel
  have e2 : "test/util.o" = "test/util" ++ ".o" := by decide +kernel
  rw [cleanedPlain, e1, e2] at h
  simp only [List.mem_append, List.mem_map, List.mem_cons, List.not_mem_nil, or_false] at h
  simp only [objects, List.mem_append, List.mem_singleton]
  rcases h with (((((((⟨y, hy, rfl⟩ | h) | ⟨y, hy, rfl⟩) | ⟨y, hy, rfl⟩) | ⟨y, hy, rfl⟩) | h) | ⟨y, hy, rfl⟩) | ⟨y, hy, rfl⟩) | h
  · exact Or.inl ⟨y, by tauto, rfl⟩
  · exact Or.inl ⟨_, by tauto, h⟩
  · exact Or.inr (Or.inl ⟨y, by tauto, rfl⟩)
  · exact Or.inl ⟨y, by tauto, rfl⟩
  · exact Or.inl ⟨y, by tauto, rfl⟩
  · exact Or.inl ⟨_, by tauto, h⟩
  · exact Or.inr (Or.inl ⟨y, by tauto, rfl⟩)
  · exact Or.inr (Or.inr (Or.inl ⟨y, hy, rfl⟩))
  · tauto

theorem object_cleaned {y : String} (h : y ∈ objects) : y ++ ".o" ∈ cleanedPlain := by
  have e1 : "example/util.o" = "example/util" ++ ".o" := by decide +kernel
  have e2 : "test/util.o" = "test/util" ++ ".o" := by decide +kernel
  rw [cleanedPlain, e1, e2]
  have m : ∀ {l : List String}, y ∈ l → y ++ ".o" ∈ l.map (· ++ ".o") := fun h => List.mem_map_of_mem (f := (· ++ ".o")) h
  simp only [objects, List.mem_append, List.mem_singleton] at h
  simp only [List.mem_append, List.mem_singleton]
  rcases h with (((h | h) | h) | h) | h
  · have := m h; tauto
  · subst h; tauto
  · have := m h; tauto
  · subst h; tauto
  · have := m h; tauto

/-- No file that make writes has the name of a source file. -/
theorem cleaned_last {x : String} (h : x ∈ cleanedPlain) : lastOf x = some 'o' ∨ lastOf x = some ')' ∨ lastOf x = some 's' := by
  rcases cleaned_cases h with ⟨y, _, rfl⟩ | ⟨y, _, rfl⟩ | ⟨y, _, rfl⟩ | rfl | rfl
  · exact Or.inl (by rw [lastOf_append _ _ (by decide)]; decide +kernel)
  · exact Or.inr (Or.inl (by rw [lastOf_append _ _ (by decide)]; decide +kernel))
  · exact Or.inr (Or.inr (by rw [lastOf_append _ _ (by decide)]; decide +kernel))
  · exact Or.inr (Or.inl (by decide +kernel))
  · exact Or.inr (Or.inl (by decide +kernel))

theorem tree_lasts {x : String} (h : x ∈ plainTree) : lastOf x ≠ some 'o' ∧ lastOf x ≠ some ')' ∧ lastOf x ≠ some 's' ∧ lastOf x ≠ some '7' := by
  have := List.all_eq_true.mp tree_last x h
  rw [List.contains_iff_mem] at this
  simp only [List.mem_cons, List.not_mem_nil, or_false] at this
  rcases this with h | h | h | h | h | h | h <;> rw [h] <;> decide

theorem tree_object : (objects.all fun x => plainTree.contains (x ++ ".c")) = true := by decide +kernel
theorem tree_common : (common.all fun x => plainTree.contains x) = true := by decide +kernel

/-- What the goals need is a source file or removed by `clean`. -/
theorem step_ok {t f : String} {l : List String} (ht : t ∈ cleanedPlain) (h : (t, l) ∈ rules) (hf : f ∈ l) : f ∈ plainTree ∨ f ∈ cleanedPlain := by
  have hA : "$(ANAME)" ∈ cleanedPlain := List.mem_append_right _ List.mem_cons_self
  have no : ∀ {a b e : String}, e ≠ "" → lastOf e ≠ some 'o' → a ++ ".o" = b ++ e → False := by
    intro a b e he hl h
    have := congrArg lastOf h
    rw [lastOf_append _ _ (by decide), lastOf_append _ _ he] at this
    exact hl (this.symm.trans (by decide +kernel))
  rcases rules_cases h with ⟨y, rfl, hy⟩ | ⟨_, rfl⟩ | ⟨y, rfl, ⟨hy, rfl⟩ | ⟨hy, rfl⟩⟩ | ⟨y, hy, rfl, rfl⟩
  · have ho : y ∈ objects := by
      rcases cleaned_cases ht with ⟨z, hz, e⟩ | ⟨z, _, e⟩ | ⟨z, _, e⟩ | e | e
      · exact append_inj e ▸ hz
      · exact (no (by decide) (by decide +kernel) e).elim
      · exact (no (by decide) (by decide +kernel) e).elim
      · exact (no (b := "") (e := "$(ANAME)") (by decide) (by decide +kernel) (by rw [e]; decide +kernel)).elim
      · exact (no (b := "") (e := "$(SONAME)") (by decide) (by decide +kernel) (by rw [e]; decide +kernel)).elim
    have := List.all_eq_true.mp (List.all_eq_true.mp objects_common _ hy) _ hf
    rw [Bool.or_eq_true, beq_iff_eq, List.contains_iff_mem] at this
    rcases this with rfl | h
    · exact Or.inl (List.contains_iff_mem.mp (List.all_eq_true.mp tree_object _ ho))
    · exact Or.inl (List.contains_iff_mem.mp (List.all_eq_true.mp tree_common _ h))
  · obtain ⟨y, hy, rfl⟩ := List.mem_map.mp hf
    exact Or.inr (object_cleaned (List.mem_append_right _ hy))
  · simp only [List.mem_cons, List.not_mem_nil, or_false] at hf
    rcases hf with rfl | rfl | rfl
    · exact Or.inr (object_cleaned (by simp [objects, hy]))
    · exact Or.inr (object_cleaned (y := "example/util") (by simp [objects]))
    · exact Or.inr hA
  · simp only [List.mem_cons, List.not_mem_nil, or_false] at hf
    rcases hf with rfl | rfl | rfl
    · exact Or.inr (object_cleaned (by simp [objects, hy]))
    · exact Or.inr (object_cleaned (y := "test/util") (by simp [objects]))
    · exact Or.inr hA
  · rw [List.mem_singleton.mp hf]
    have : y ++ "$(BINSUFFIX)" ∈ testNames.map (· ++ "$(BINSUFFIX)") := List.mem_map_of_mem (f := (· ++ "$(BINSUFFIX)")) hy
    refine Or.inr ?_
    simp only [cleanedPlain, List.mem_append]
    tauto

theorem rule_no_source {t : String} {l : List String} (h : (t, l) ∈ rules) : t ∉ plainTree := by
  intro ht
  have hl := tree_lasts ht
  rcases rules_cases h with ⟨y, rfl, _⟩ | ⟨rfl | rfl, _⟩ | ⟨y, rfl, _⟩ | ⟨y, _, rfl, _⟩
  · exact hl.1 (by rw [lastOf_append _ _ (by decide)]; decide +kernel)
  · exact hl.2.1 (by decide +kernel)
  · exact hl.2.1 (by decide +kernel)
  · exact hl.2.1 (by rw [lastOf_append _ _ (by decide)]; decide +kernel)
  · exact hl.2.2.1 (by rw [lastOf_append _ _ (by decide)]; decide +kernel)

theorem made_ok {t f : String} (h : MadeFrom t f) : t ∈ cleanedPlain → f ∈ plainTree ∨ f ∈ cleanedPlain := by
  induction h with
  | step h hf => exact fun ht => step_ok ht h hf
  | trans h hg hm ih =>
    intro ht
    rcases step_ok ht h hg with hp | hc
    · cases hm with
      | step h' _ => exact absurd hp (rule_no_source h')
      | trans h' _ _ => exact absurd hp (rule_no_source h')
    · exact ih hc

/-- Whatever make needs for the libraries, the programs and the tests is either a source file, which `clean` keeps, or is removed by `clean`. -/
theorem clean_built (x : String) (h : x ∈ goals ∨ ∃ g ∈ goals, MadeFrom g x) : (File.plain x ∈ tree ∧ File.plain x ∉ cleaned) ∨
    (File.plain x ∈ cleaned ∧ File.plain x ∉ tree) := by
  have hg : ∀ g ∈ goals, g ∈ cleanedPlain := by
    intro g hg
    simp only [goals, List.mem_append] at hg
    simp only [cleanedPlain, List.mem_append]
    tauto
  have hx : x ∈ plainTree ∨ x ∈ cleanedPlain := by
    rcases h with h | ⟨g, h, hm⟩
    · exact Or.inr (hg x h)
    · exact made_ok hm (hg g h)
  rw [plain_mem, cleaned_mem]
  rcases hx with hx | hx
  · refine Or.inl ⟨hx, ?_⟩
    have ht := tree_lasts hx
    rintro (hc | rfl)
    · rcases cleaned_last hc with h | h | h
      · exact ht.1 h
      · exact ht.2.1 h
      · exact ht.2.2.1 h
    · exact ht.2.2.2 (by decide +kernel)
  · refine Or.inr ⟨Or.inl hx, fun hp => ?_⟩
    have ht := tree_lasts hp
    rcases cleaned_last hx with h | h | h
    · exact ht.1 h
    · exact ht.2.1 h
    · exact ht.2.2.1 h

theorem programs_no_source : ((exampleNames ++ testNames).all fun y => ["", ".exe"].all fun b => !(plainTree.contains (y ++ b))) = true := by
  decide +kernel

theorem tree_no_library : (plainTree.all fun s => !(s.toList.take 8 == "libtakum".toList)) = true := by decide +kernel

/-- `clean` removes no source file, under every preset and for every version. -/
theorem clean_sources (s : Install.System) (v : Install.Version) (x : String) (hx : File.plain x ∈ cleaned) (t : List Char) (h : Expanded s v x t) :
    ∀ y, File.plain y ∈ tree → t ≠ y.toList := by
  rintro y hy rfl
  rw [plain_mem] at hy
  have hl : y.toList.take 8 ≠ "libtakum".toList := by simpa using List.all_eq_true.mp tree_no_library y hy
  rw [cleaned_mem] at hx
  rcases h with ⟨_, e⟩ | ⟨_, e⟩ | ⟨z, b, rfl, hb, e⟩ | ⟨_, e⟩
  · rw [e] at hl; cases s <;> exact hl rfl
  · rw [e] at hl; cases s <;> exact hl rfl
  · have hz : z ∈ exampleNames ++ testNames := by
      have ne : ∀ {a e : String}, e ≠ "" → lastOf e ≠ some ')' → z ++ "$(BINSUFFIX)" ≠ a ++ e := by
        intro a e he hl h
        have := congrArg lastOf h
        rw [lastOf_append _ _ (by decide), lastOf_append _ _ he] at this
        exact hl (this.symm.trans (by decide +kernel))
      have nl : ∀ e : String, e.toList.length < 12 → z ++ "$(BINSUFFIX)" ≠ e := by
        rintro e he rfl
        rw [String.toList_append, List.length_append] at he
        have : "$(BINSUFFIX)".toList.length = 12 := by decide +kernel
        omega
      rcases hx with hx | hx
      · rcases cleaned_cases hx with ⟨a, _, e⟩ | ⟨a, ha, e⟩ | ⟨a, _, e⟩ | e | e
        · exact absurd e (ne (by decide) (by decide +kernel))
        · exact append_inj e ▸ ha
        · exact absurd e (ne (by decide) (by decide +kernel))
        · exact absurd e (nl _ (by decide +kernel))
        · exact absurd e (nl _ (by decide +kernel))
      · exact absurd hx (ne (a := "man/libtakum") (e := ".7") (by decide) (by decide +kernel))
    have hb : b ∈ ["", ".exe"] := by
      cases s <;> cases hb <;> simp
    have := List.all_eq_true.mp (List.all_eq_true.mp programs_no_source z hz) b hb
    rw [← String.toList_append, String.toList_inj] at e
    rw [← e] at this
    simp [hy] at this
  · obtain rfl := String.toList_inj.mp e
    have ht := tree_lasts hy
    rcases hx with hc | rfl
    · rcases cleaned_last hc with h | h | h
      · exact ht.1 h
      · exact ht.2.1 h
      · exact ht.2.2.1 h
    · exact ht.2.2.2 (by decide +kernel)

example : File.plain "test/sin$(BINSUFFIX)" ∈ cleaned ∧ Expanded .windows ⟨1, 0, 1⟩ "test/sin$(BINSUFFIX)" "test/sin.exe".toList := by
  refine ⟨?_, Or.inr (Or.inr (Or.inl ⟨"test/sin", ".exe", by decide +kernel, rfl, by decide +kernel⟩))⟩
  rw [cleaned_mem]
  exact Or.inl (by decide +kernel)
example : "test/sin.success" ∈ goals ∧ "test/sin" ∈ testNames ∧ "src/sin" ∈ srcNames ∧ "src/sin" ∉ unruled := by decide +kernel

end Takum.Make
