import Verif.Model.Install
import Verif.Props.Interface

/-!
# Installing and removing the library (C136), configuring it (C137)
-/

namespace Takum.Install
open Takum.Iface

/-! ## Specification -/

/-- The files that belong to an installation: the license, a page for each function and one for the library, the two libraries, the links, the header, the
description for pkg-config. -/
def Installed (c : Config) (v : Version) (p : Path) : Prop :=
  p = (.lic, [.str "LICENSE"]) ∨ (∃ q ∈ header, p = (.man3, [.str q.fn.text, .num 3])) ∨ p = (.man7, [.str "libtakum", .num 7]) ∨
  p = (.lib, c.aname) ∨ p = (.lib, c.soname) ∨
  (c.symlink = true ∧ ((∃ i ≤ v.minor, p = (.lib, [.str "libtakum", .str "so", .num v.major, .num i])) ∨
    p = (.lib, [.str "libtakum", .str "so", .num v.major]) ∨ p = (.lib, [.str "libtakum", .str "so"]))) ∨
  p = (.inc, [.str "takum", .str "h"]) ∨ (c.pc = true ∧ p = (.pc, [.str "libtakum", .str "pc"]))

/-- A name in the directory of the libraries leads to a library: directly or by a link. -/
def Leads (fs : FS) (n lib : List Part) : Prop :=
  fs (.lib, n) = some (.copy lib) ∨ fs (.lib, n) = some (.link lib) ∧ fs (.lib, lib) = some (.copy lib)

/-- The variables that configure sets. -/
def presetVars : List String := ["ANAME", "SONAME", "BINSUFFIX", "SOFLAGS", "SOSYMLINK", "LDCONFIG"]

/-- The line sets the variable: the name, spaces, the sign `=`, anything. -/
def Sets (var : String) (line : List Char) : Prop := ∃ n r, line = var.toList ++ List.replicate n ' ' ++ '=' :: r

/-- A value that configure gives to a variable. -/
def presetValue (s : System) (var : String) : Option String := ((preset s).find? fun p => p.1 = var).map fun p => p.2.2

/-! ## Proof -/

theorem loop_put (m : ℕ) (q : ℕ → Path) (n : Node) (i : ℕ) (fs : FS) (p : Path) :
    loop m (fun i => put (q i) n) i fs p = some n ∧ (∃ j, i ≤ j ∧ j ≤ m ∧ p = q j) ∨
    loop m (fun i => put (q i) n) i fs p = fs p ∧ ¬ ∃ j, i ≤ j ∧ j ≤ m ∧ p = q j := by
  induction hk : m + 1 - i generalizing i fs with
  | zero =>
    rw [loop, if_neg (by omega)]
    exact Or.inr ⟨rfl, fun ⟨j, _, _, _⟩ => by omega⟩
  | succ k ih =>
    rw [loop, if_pos (by omega)]
    rcases ih (i + 1) (put (q i) n fs) (by omega) with ⟨h, j, h1, h2, h3⟩ | ⟨h, h'⟩
    · exact Or.inl ⟨h, j, by omega, h2, h3⟩
    · by_cases hp : p = q i
      · exact Or.inl ⟨by rw [h, put, if_pos hp], i, le_rfl, by omega, hp⟩
      · refine Or.inr ⟨by rw [h, put, if_neg hp], ?_⟩
        rintro ⟨j, h1, h2, h3⟩
        rcases Nat.eq_or_lt_of_le h1 with rfl | h4
        · exact hp h3
        · exact h' ⟨j, h4, h2, h3⟩

theorem loop_rm (m : ℕ) (q : ℕ → Path) (i : ℕ) (fs : FS) (p : Path) :
    loop m (fun i => rm (q i)) i fs p = none ∧ (∃ j, i ≤ j ∧ j ≤ m ∧ p = q j) ∨
    loop m (fun i => rm (q i)) i fs p = fs p ∧ ¬ ∃ j, i ≤ j ∧ j ≤ m ∧ p = q j := by
  induction hk : m + 1 - i generalizing i fs with
  | zero =>
    rw [loop, if_neg (by omega)]
    exact Or.inr ⟨rfl, fun ⟨j, _, _, _⟩ => by omega⟩
  | succ k ih =>
    rw [loop, if_pos (by omega)]
    rcases ih (i + 1) (rm (q i) fs) (by omega) with ⟨h, j, h1, h2, h3⟩ | ⟨h, h'⟩
    · exact Or.inl ⟨h, j, by omega, h2, h3⟩
    · by_cases hp : p = q i
      · exact Or.inl ⟨by rw [h, rm, if_pos hp], i, le_rfl, by omega, hp⟩
      · refine Or.inr ⟨by rw [h, rm, if_neg hp], ?_⟩
        rintro ⟨j, h1, h2, h3⟩
        rcases Nat.eq_or_lt_of_le h1 with rfl | h4
        · exact hp h3
        · exact h' ⟨j, h4, h2, h3⟩

theorem pages_put (l : List Fn) (fs : FS) (p : Path) (h : ¬ ∃ f ∈ l, p = (.man3, pageName f)) :
    l.foldl (fun fs f => put (.man3, pageName f) (.copy (pageName f)) fs) fs p = fs p := by
  induction l generalizing fs with
  | nil => rfl
  | cons f l ih =>
    rw [List.foldl_cons, ih _ fun ⟨g, hg, hp⟩ => h ⟨g, List.mem_cons_of_mem _ hg, hp⟩, put, if_neg fun hp => h ⟨f, List.mem_cons_self, hp⟩]

theorem pages_copy (l : List Fn) (fs : FS) (n : List Part) (h : ∃ f ∈ l, n = pageName f) :
    l.foldl (fun fs f => put (.man3, pageName f) (.copy (pageName f)) fs) fs (.man3, n) = some (.copy n) := by
  induction l generalizing fs with
  | nil => obtain ⟨f, hf, _⟩ := h; cases hf
  | cons f l ih =>
    rw [List.foldl_cons]
    by_cases hl : ∃ g ∈ l, n = pageName g
    · exact ih _ hl
    · rw [pages_put _ _ _ fun ⟨g, hg, e⟩ => hl ⟨g, hg, (Prod.mk.injEq .. ▸ e).2⟩]
      obtain ⟨g, hg, e⟩ := h
      rcases List.mem_cons.mp hg with rfl | hg
      · rw [put, e, if_pos rfl]
      · exact absurd ⟨g, hg, e⟩ hl

theorem pages_rm (l : List Fn) (fs : FS) (p : Path) :
    l.foldl (fun fs f => rm (.man3, pageName f) fs) fs p = none ∧ (∃ f ∈ l, p = (.man3, pageName f)) ∨
    l.foldl (fun fs f => rm (.man3, pageName f) fs) fs p = fs p ∧ ¬ ∃ f ∈ l, p = (.man3, pageName f) := by
  induction l generalizing fs with
  | nil => exact Or.inr ⟨rfl, by simp⟩
  | cons f l ih =>
    rw [List.foldl_cons]
    rcases ih (rm (.man3, pageName f) fs) with ⟨h, g, hg, hp⟩ | ⟨h, h'⟩
    · exact Or.inl ⟨h, g, List.mem_cons_of_mem _ hg, hp⟩
    · by_cases hp : p = (.man3, pageName f)
      · exact Or.inl ⟨by rw [h, rm, if_pos hp], f, List.mem_cons_self, hp⟩
      · refine Or.inr ⟨by rw [h, rm, if_neg hp], ?_⟩
        rintro ⟨g, hg, hpg⟩
        rcases List.mem_cons.mp hg with rfl | hg
        · exact hp hpg
        · exact h' ⟨g, hg, hpg⟩

theorem pageName_eq (f : Fn) : pageName f = [.str f.text, .num 3] := by
  obtain ⟨k, w, b⟩ := f
  have h : "takum" ++ (if k = .lin then "_linear" else "") ++ toString w.n = Calc.typeName k w := by
    cases k <;> cases w <;> decide +kernel
  rw [pageName, Fn.text]
  simp only [h]

theorem names_perm : (header.map Proto.fn).isPerm Make.man3 = true := by decide +kernel

theorem pages_iff (p : Path) : (∃ f ∈ Make.man3, p = (.man3, pageName f)) ↔ ∃ q ∈ header, p = (.man3, [.str q.fn.text, .num 3]) := by
  constructor
  · rintro ⟨f, hf, h⟩
    obtain ⟨q, hq, rfl⟩ := List.mem_map.mp ((List.isPerm_iff.mp names_perm).mem_iff.mpr hf)
    exact ⟨q, hq, by rw [h, pageName_eq]⟩
  · rintro ⟨q, hq, h⟩
    exact ⟨q.fn, (List.isPerm_iff.mp names_perm).mem_iff.mp (List.mem_map_of_mem hq), by rw [h, pageName_eq]⟩

/-- A step removes the paths in `S` and leaves the others. -/
def Removes (S : Path → Prop) (f : FS → FS) : Prop := ∀ fs p, (S p → f fs p = none) ∧ (¬ S p → f fs p = fs p)

/-- A step changes only the paths in `S`. -/
def Only (S : Path → Prop) (f : FS → FS) : Prop := ∀ fs p, ¬ S p → f fs p = fs p

theorem Removes.comp {S R : Path → Prop} {f g : FS → FS} (hf : Removes S f) (hg : Removes R g) :
    Removes (fun p => S p ∨ R p) (fun fs => g (f fs)) := by
  intro fs p
  constructor
  · intro h
    by_cases hr : R p
    · exact (hg _ p).1 hr
    · show g (f fs) p = none
      rw [(hg _ p).2 hr]
      exact (hf fs p).1 (h.resolve_right hr)
  · intro h
    rw [not_or] at h
    show g (f fs) p = fs p
    rw [(hg _ p).2 h.2, (hf fs p).2 h.1]

theorem Only.comp {S R : Path → Prop} {f g : FS → FS} (hf : Only S f) (hg : Only R g) : Only (fun p => S p ∨ R p) (fun fs => g (f fs)) := by
  intro fs p h
  rw [not_or] at h
  show g (f fs) p = fs p
  rw [hg _ p h.2, hf fs p h.1]

theorem removes_rm (q : Path) : Removes (fun p => p = q) (rm q) := fun _ _ => ⟨fun h => if_pos h, fun h => if_neg h⟩
theorem only_put (q : Path) (n : Node) : Only (fun p => p = q) (put q n) := fun _ _ h => if_neg h

theorem Removes.cond {S : Path → Prop} {f : FS → FS} (b : Bool) (hf : Removes S f) :
    Removes (fun p => b = true ∧ S p) (fun fs => if b then f fs else fs) := by
  intro fs p
  cases b with
  | false => exact ⟨fun h => absurd h.1 (by simp), fun _ => rfl⟩
  | true => exact ⟨fun h => (hf fs p).1 h.2, fun h => (hf fs p).2 fun hs => h ⟨rfl, hs⟩⟩

theorem Only.cond {S : Path → Prop} {f : FS → FS} (b : Bool) (hf : Only S f) :
    Only (fun p => b = true ∧ S p) (fun fs => if b then f fs else fs) := by
  intro fs p h
  cases b with
  | false => rfl
  | true => exact hf fs p fun hs => h ⟨rfl, hs⟩

theorem removes_loop (m : ℕ) (q : ℕ → Path) : Removes (fun p => ∃ i ≤ m, p = q i) (loop m (fun i => rm (q i)) 0) := by
  intro fs p
  rcases loop_rm m q 0 fs p with ⟨h, j, _, h2, h3⟩ | ⟨h, h'⟩
  · exact ⟨fun _ => h, fun hn => absurd ⟨j, h2, h3⟩ hn⟩
  · exact ⟨fun ⟨j, h2, h3⟩ => absurd ⟨j, Nat.zero_le _, h2, h3⟩ h', fun _ => h⟩

theorem only_loop (m : ℕ) (q : ℕ → Path) (n : Node) : Only (fun p => ∃ i ≤ m, p = q i) (loop m (fun i => put (q i) n) 0) := by
  intro fs p hn
  rcases loop_put m q n 0 fs p with ⟨_, j, _, h2, h3⟩ | ⟨h, _⟩
  · exact absurd ⟨j, h2, h3⟩ hn
  · exact h

theorem removes_pages : Removes (fun p => ∃ q ∈ header, p = (.man3, [.str q.fn.text, .num 3]))
    (fun fs => Make.man3.foldl (fun fs f => rm (.man3, pageName f) fs) fs) := by
  intro fs p
  rcases pages_rm Make.man3 fs p with ⟨h, h'⟩ | ⟨h, h'⟩
  · exact ⟨fun _ => h, fun hn => absurd ((pages_iff p).mp h') hn⟩
  · exact ⟨fun hn => absurd ((pages_iff p).mpr hn) h', fun _ => h⟩

theorem only_pages : Only (fun p => ∃ q ∈ header, p = (.man3, [.str q.fn.text, .num 3]))
    (fun fs => Make.man3.foldl (fun fs f => put (.man3, pageName f) (.copy (pageName f)) fs) fs) := by
  intro fs p h
  exact pages_put _ fs p fun h' => h ((pages_iff p).mp h')

theorem shuffle1 {A B C D E F G H I J s : Prop} :
    A ∨ B ∨ C ∨ D ∨ E ∨ (s ∧ (F ∨ G ∨ H)) ∨ I ∨ J ↔ ((((((((B ∨ C) ∨ A) ∨ D) ∨ E) ∨ s ∧ F) ∨ s ∧ G) ∨ s ∧ H) ∨ I) ∨ J := by tauto

theorem shuffle2 {A B C D E F G H I J s : Prop} :
    A ∨ B ∨ C ∨ D ∨ E ∨ (s ∧ (F ∨ G ∨ H)) ∨ I ∨ J ↔ ((((((((A ∨ B) ∨ C) ∨ D) ∨ E) ∨ s ∧ F) ∨ s ∧ G) ∨ s ∧ H) ∨ I) ∨ J := by tauto

theorem first_removes : Removes (fun p => ((∃ q ∈ header, p = (.man3, [.str q.fn.text, .num 3])) ∨ p = (.man7, [.str "libtakum", .num 7])) ∨
    p = (.lic, [.str "LICENSE"])) uninstallFirst :=
  (removes_pages.comp (removes_rm (.man7, [.str "libtakum", .num 7]))).comp (removes_rm (.lic, [.str "LICENSE"]))

theorem all_removes (c : Config) (v : Version) : Removes (Installed c v) (fun fs => uninstallRest c v (uninstallFirst fs)) := by
  have h := ((((((((removes_pages.comp (removes_rm (.man7, [.str "libtakum", .num 7]))).comp (removes_rm (.lic, [.str "LICENSE"]))).comp
    (removes_rm (.lib, c.aname))).comp (removes_rm (.lib, c.soname))).comp
    ((removes_loop v.minor (fun i => (.lib, soMinor v i))).cond c.symlink)).comp ((removes_rm (.lib, soMajor v)).cond c.symlink)).comp
    ((removes_rm (.lib, soPlain)).cond c.symlink)).comp (removes_rm (.inc, [.str "takum", .str "h"]))).comp
    ((removes_rm (.pc, [.str "libtakum", .str "pc"])).cond c.pc)
  intro fs p
  exact ⟨fun hi => (h fs p).1 (shuffle1.mp hi), fun hi => (h fs p).2 fun hn => hi (shuffle1.mpr hn)⟩

theorem first_lic (fs : FS) (n : List Part) : uninstallFirst fs (.lic, n) = if n = [.str "LICENSE"] then none else fs (.lic, n) := by
  by_cases h : n = [.str "LICENSE"]
  · rw [if_pos h, (first_removes fs _).1 (Or.inr (by rw [h]))]
  · rw [if_neg h, (first_removes fs _).2]
    rintro ((⟨q, _, hq⟩ | hq) | hq)
    · cases hq
    · cases hq
    · exact h (Prod.mk.injEq .. ▸ hq).2

/-- Nothing but the license is in the directory of the license. -/
def Alone (fs : FS) : Prop := ∀ n, n ≠ [.str "LICENSE"] → fs (.lic, n) = none

theorem uninstall_alone (c : Config) (v : Version) {fs : FS} (h : Alone fs) : uninstall c v fs = uninstallRest c v (uninstallFirst fs) := by
  rw [uninstall, if_pos]
  intro n
  rw [first_lic]
  split
  · rfl
  · exact h n ‹_›

theorem uninstall_other (c : Config) (v : Version) {fs : FS} (h : ¬ Alone fs) : uninstall c v fs = uninstallFirst fs := by
  rw [uninstall, if_neg]
  intro hn
  refine h fun n hne => ?_
  have := hn n
  rwa [first_lic, if_neg hne] at this

theorem install_only (c : Config) (v : Version) : Only (Installed c v) (install c v) := by
  have h := (((((((((only_put (.lic, [.str "LICENSE"]) (.copy [.str "LICENSE"])).comp only_pages).comp
    (only_put (.man7, [.str "libtakum", .num 7]) (.copy [.str "libtakum", .num 7]))).comp
    (only_put (.lib, c.aname) (.copy c.aname))).comp (only_put (.lib, c.soname) (.copy c.soname))).comp
    ((only_loop v.minor (fun i => (.lib, soMinor v i)) (.link c.soname)).cond c.symlink)).comp
    ((only_put (.lib, soMajor v) (.link c.soname)).cond c.symlink)).comp
    ((only_put (.lib, soPlain) (.link c.soname)).cond c.symlink)).comp
    (only_put (.inc, [.str "takum", .str "h"]) (.copy [.str "takum", .str "h"]))).comp
    ((only_put (.pc, [.str "libtakum", .str "pc"]) (.copy [.str "libtakum", .str "pc"])).cond c.pc)
  intro fs p hp
  exact h fs p fun hi => hp (shuffle2.mpr hi)

theorem install_lib (c : Config) (v : Version) (fs : FS) (n : List Part) : install c v fs (.lib, n) =
    if c.symlink = true ∧ (n = soPlain ∨ n = soMajor v ∨ ∃ i ≤ v.minor, n = soMinor v i) then some (.link c.soname)
    else if n = c.soname then some (.copy c.soname) else if n = c.aname then some (.copy c.aname) else fs (.lib, n) := by
  obtain ⟨a, so, sym, pc⟩ := c
  have hl : ∀ fs' : FS, loop v.minor (fun i => put (.lib, soMinor v i) (.link so)) 0 fs' (.lib, n) =
      if ∃ i ≤ v.minor, n = soMinor v i then some (.link so) else fs' (.lib, n) := by
    intro fs'
    rcases loop_put v.minor (fun i => (.lib, soMinor v i)) (.link so) 0 fs' (.lib, n) with ⟨h, j, _, h2, h3⟩ | ⟨h, h'⟩
    · rw [h, if_pos ⟨j, h2, (Prod.mk.injEq .. ▸ h3).2⟩]
    · rw [h, if_neg fun ⟨j, h2, h3⟩ => h' ⟨j, Nat.zero_le _, h2, by rw [h3]⟩]
  have hp : ∀ fs' : FS, Make.man3.foldl (fun fs f => put (.man3, pageName f) (.copy (pageName f)) fs) fs' (.lib, n) = fs' (.lib, n) :=
    fun fs' => pages_put _ fs' _ fun ⟨f, _, h⟩ => by cases h
  have hput : ∀ (d : Dir) (m : List Part) (x : Node) (fs' : FS), put (d, m) x fs' (.lib, n) = if .lib = d ∧ n = m then some x else fs' (.lib, n) := by
    intro d m x fs'
    rw [put]
    exact if_congr (by rw [Prod.mk.injEq]) rfl rfl
  cases sym <;> cases pc <;>
    simp only [install, hput, hp, hl, reduceCtorEq, false_and, if_false, if_true, Bool.false_eq_true, true_and]
  all_goals
    by_cases h1 : n = soPlain <;> by_cases h2 : n = soMajor v <;> by_cases h3 : ∃ i ≤ v.minor, n = soMinor v i <;>
      simp only [h1, h2, h3, if_true, if_false, true_or, or_true, or_self, ite_self]

/-! ## C136 -/

/-- Installing changes nothing but the files of the installation. -/
theorem install_frame (c : Config) (v : Version) (fs : FS) (p : Path) (h : ¬ Installed c v p) : install c v fs p = fs p :=
  install_only c v fs p h

/-- All files of the installation outside of the directory of the libraries are copied. -/
theorem install_files (c : Config) (v : Version) (fs : FS) (d : Dir) (n : List Part) (h : Installed c v (d, n)) (hd : d ≠ .lib) :
    install c v fs (d, n) = some (.copy n) := by
  obtain ⟨a, so, sym, pc⟩ := c
  have hl : ∀ fs' : FS, loop v.minor (fun i => put (.lib, soMinor v i) (.link so)) 0 fs' (d, n) = fs' (d, n) := by
    intro fs'
    exact only_loop v.minor (fun i => (.lib, soMinor v i)) (.link so) fs' (d, n) fun ⟨i, _, h⟩ => hd (Prod.mk.injEq .. ▸ h).1
  have hput : ∀ (d' : Dir) (m : List Part) (x : Node) (fs' : FS), put (d', m) x fs' (d, n) = if d = d' ∧ n = m then some x else fs' (d, n) := by
    intro d' m x fs'
    rw [put]
    exact if_congr (by rw [Prod.mk.injEq]) rfl rfl
  rcases h with h | h | h | h | h | ⟨_, ⟨i, _, h⟩ | h | h⟩ | h | ⟨hp, h⟩
  · cases h
    cases sym <;> cases pc <;> simp [install, hput, hl, pages_put]
  · have hn := h
    obtain ⟨q, _, h⟩ := h
    obtain rfl := (Prod.mk.injEq .. ▸ h).1
    have := pages_copy Make.man3 ((put (.lic, [.str "LICENSE"]) (.copy [.str "LICENSE"])) fs) n (by
      obtain ⟨f, hf, e⟩ := (pages_iff _).mpr hn
      exact ⟨f, hf, (Prod.mk.injEq .. ▸ e).2⟩)
    cases sym <;> cases pc <;> simp [install, hput, hl, this]
  · cases h
    cases sym <;> cases pc <;> simp [install, hput, hl]
  · exact absurd (Prod.mk.injEq .. ▸ h).1 hd
  · exact absurd (Prod.mk.injEq .. ▸ h).1 hd
  · exact absurd (Prod.mk.injEq .. ▸ h).1 hd
  · exact absurd (Prod.mk.injEq .. ▸ h).1 hd
  · exact absurd (Prod.mk.injEq .. ▸ h).1 hd
  · cases h
    cases sym <;> cases pc <;> simp [install, hput]
  · cases h
    simp only at hp
    subst hp
    cases sym <;> simp [install, hput]

theorem install_alone (c : Config) (v : Version) (fs : FS) : Alone (install c v fs) ↔ Alone fs := by
  refine forall_congr' fun n => imp_congr_right fun hn => ?_
  rw [install_frame]
  rintro (h | ⟨q, _, h⟩ | h | h | h | ⟨_, ⟨i, _, h⟩ | h | h⟩ | h | ⟨hp, h⟩)
  · exact hn (Prod.mk.injEq .. ▸ h).2
  all_goals cases h

/-- After installing, the two libraries are there under every preset, whatever the version; no link replaces them. -/
theorem install_libraries (s : System) (v : Version) (fs : FS) :
    install (s.config v) v fs (.lib, (s.config v).aname) = some (.copy (s.config v).aname) ∧
    install (s.config v) v fs (.lib, (s.config v).soname) = some (.copy (s.config v).soname) := by
  rw [install_lib, install_lib]
  cases s <;> simp [System.config, soPlain, soMajor, soMinor]

/-- Removing the library after installing it removes all files of the installation and nothing else, if nothing but the license is in the directory of the
license. -/
theorem uninstall_install_partial (c : Config) (v : Version) (fs : FS) (p : Path) (h : Alone fs) :
    (Installed c v p → uninstall c v (install c v fs) p = none) ∧ (¬ Installed c v p → uninstall c v (install c v fs) p = fs p) := by
  rw [uninstall_alone c v ((install_alone c v fs).mpr h)]
  exact ⟨(all_removes c v _ p).1, fun hp => ((all_removes c v _ p).2 hp).trans (install_frame c v fs p hp)⟩

/-- Otherwise make stops at `rmdir`: the pages and the license are removed, the libraries, the links, the header and the description for pkg-config are
left. -/
theorem uninstall_refuted (c : Config) (v : Version) (fs : FS) (h : ¬ Alone fs) :
    (∀ n, uninstall c v (install c v fs) (.lib, n) = install c v fs (.lib, n)) ∧
    uninstall c v (install c v fs) (.inc, [.str "takum", .str "h"]) = some (.copy [.str "takum", .str "h"]) ∧
    (c.pc = true → uninstall c v (install c v fs) (.pc, [.str "libtakum", .str "pc"]) = some (.copy [.str "libtakum", .str "pc"])) := by
  rw [uninstall_other c v fun ha => h ((install_alone c v fs).mp ha)]
  have key : ∀ p : Path, p.1 = .lib ∨ p.1 = .inc ∨ p.1 = .pc → uninstallFirst (install c v fs) p = install c v fs p := by
    rintro p hp
    refine (first_removes _ p).2 ?_
    rintro ((⟨q, _, hq⟩ | hq) | hq) <;> subst hq <;> simp at hp
  refine ⟨fun n => key _ (Or.inl rfl), ?_, fun hp => ?_⟩
  · rw [key _ (Or.inr (Or.inl rfl))]
    exact install_files c v fs _ _ (by simp [Installed]) (by simp)
  · rw [key _ (Or.inr (Or.inr rfl))]
    exact install_files c v fs _ _ (by simp [Installed, hp]) (by simp)

/-- Removing a later version leaves one file of an earlier version with the same major version: its library, unless the versions have the same name for
it. -/
theorem uninstall_upgrade (v v' : Version) (fs : FS) (hM : v.major = v'.major) (hm : v.minor ≤ v'.minor) (h : Alone fs) (p : Path) :
    let left := uninstall (System.unix.config v') v' (install (System.unix.config v') v' (install (System.unix.config v) v fs))
    (Installed (System.unix.config v') v' p → left p = none) ∧
    (¬ Installed (System.unix.config v') v' p → p = (.lib, [.str "libtakum", .str "so", .num v.major, .num v.minor, .num v.patch]) →
      left p = some (.copy (System.unix.config v).soname)) ∧
    (¬ Installed (System.unix.config v') v' p → p ≠ (.lib, [.str "libtakum", .str "so", .num v.major, .num v.minor, .num v.patch]) → left p = fs p) := by
  have hu := uninstall_install_partial (System.unix.config v') v' (install (System.unix.config v) v fs) p ((install_alone _ _ _).mpr h)
  refine ⟨hu.1, fun hi hp => ?_, fun hi hp => ?_⟩
  · refine (hu.2 hi).trans ?_
    subst p
    exact (install_libraries .unix v fs).2
  · refine (hu.2 hi).trans (install_frame _ _ _ _ fun ho => hi ?_)
    rcases ho with h | h | h | h | h | ⟨_, ⟨i, h1, h⟩ | h | h⟩ | h | ⟨hp, h⟩
    · exact Or.inl h
    · exact Or.inr (Or.inl h)
    · exact Or.inr (Or.inr (Or.inl h))
    · exact Or.inr (Or.inr (Or.inr (Or.inl h)))
    · exact absurd h ‹_›
    · exact Or.inr (Or.inr (Or.inr (Or.inr (Or.inr (Or.inl ⟨rfl, Or.inl ⟨i, h1.trans hm, by rw [h, hM]⟩⟩)))))
    · exact Or.inr (Or.inr (Or.inr (Or.inr (Or.inr (Or.inl ⟨rfl, Or.inr (Or.inl (by rw [h, hM]))⟩)))))
    · exact Or.inr (Or.inr (Or.inr (Or.inr (Or.inr (Or.inl ⟨rfl, Or.inr (Or.inr h)⟩)))))
    · exact Or.inr (Or.inr (Or.inr (Or.inr (Or.inr (Or.inr (Or.inl h))))))
    · exact Or.inr (Or.inr (Or.inr (Or.inr (Or.inr (Or.inr (Or.inr ⟨hp, h⟩))))))

/-- On systems with links every name that programs use for the library leads to it, among them the one that the linker writes into programs
(`-Wl,--soname=libtakum.so.MAJOR.MINOR`), whatever the version. -/
theorem install_links (v : Version) (fs : FS) (n : List Part)
    (hn : n = [.str "libtakum", .str "so"] ∨ n = [.str "libtakum", .str "so", .num v.major] ∨
      ∃ i ≤ v.minor, n = [.str "libtakum", .str "so", .num v.major, .num i]) :
    Leads (install (System.unix.config v) v fs) n (System.unix.config v).soname := by
  refine Or.inr ⟨?_, (install_libraries .unix v fs).2⟩
  rw [install_lib, if_pos ⟨rfl, hn⟩]

/-- A program that was linked with an earlier version of the library finds the later one of the same major version. -/
theorem install_upgrade (v v' : Version) (fs : FS) (hM : v.major = v'.major) (hm : v.minor ≤ v'.minor) :
    Leads (install (System.unix.config v') v' (install (System.unix.config v) v fs)) [.str "libtakum", .str "so", .num v.major, .num v.minor]
      (System.unix.config v').soname :=
  install_links v' _ _ (Or.inr (Or.inr ⟨v.minor, hm, by rw [hM]⟩))

/-- The links need a name of the library that differs from them: with the name of the preset of OpenBSD they would replace the library by a link to
itself. -/
theorem install_self_link (v : Version) (fs : FS) :
    install { System.openbsd.config v with symlink := true } v fs (.lib, (System.openbsd.config v).soname) =
      some (.link (System.openbsd.config v).soname) := by
  rw [install_lib, if_pos ⟨rfl, Or.inr (Or.inr ⟨v.minor, le_rfl, rfl⟩)⟩]

example : ∃ p, Installed (System.unix.config ⟨1, 0, 1⟩) ⟨1, 0, 1⟩ p ∧ ¬ Installed (System.unix.config ⟨1, 0, 0⟩) ⟨1, 0, 0⟩ p :=
  ⟨(.lib, [.str "libtakum", .str "so", .num 1, .num 0, .num 1]), by simp [Installed, System.config], by simp [Installed, System.config]⟩
example : Alone (fun _ => none) ∧ ¬ Alone (fun _ => some (.other 0)) := ⟨fun _ _ => rfl, fun h => by simpa using h [] (by simp)⟩
example : (⟨1, 0, 1⟩ : Version).major = (⟨1, 2, 0⟩ : Version).major ∧ (⟨1, 0, 1⟩ : Version).minor ≤ (⟨1, 2, 0⟩ : Version).minor := ⟨rfl, by decide⟩

/-! ## C137: configure -/

theorem strip_sound : ∀ {p l r : List Char}, Calc.strip p l = some r → l = p ++ r
  | [], l, r, h => by cases h; rfl
  | a :: p, [], r, h => by cases h
  | a :: p, b :: l, r, h => by
    rw [Calc.strip] at h
    by_cases hab : a = b
    · rw [if_pos hab] at h
      rw [strip_sound h, hab]
      rfl
    · rw [if_neg hab] at h; cases h

theorem dropWhile_spaces (r : List Char) : ∃ n, r = List.replicate n ' ' ++ r.dropWhile (· = ' ') := by
  induction r with
  | nil => exact ⟨0, rfl⟩
  | cons a r ih =>
    by_cases h : a = ' '
    · obtain ⟨n, hn⟩ := ih
      refine ⟨n + 1, ?_⟩
      rw [List.dropWhile_cons_of_pos (by simpa using h), List.replicate_succ, List.cons_append, ← hn, h]
    · exact ⟨0, by rw [List.dropWhile_cons_of_neg (by simpa using h)]; rfl⟩

theorem matchLine_iff (var : String) (l : List Char) : matchLine var.toList l = true ↔ Sets var l := by
  constructor
  · intro h
    unfold matchLine at h
    cases hs : Calc.strip var.toList l with
    | none => rw [hs] at h; cases h
    | some r =>
      rw [hs] at h
      simp only [decide_eq_true_eq] at h
      obtain ⟨n, hn⟩ := dropWhile_spaces r
      cases hd : r.dropWhile (· = ' ') with
      | nil => rw [hd] at h; cases h
      | cons a t =>
        rw [hd] at h hn
        cases h
        exact ⟨n, t, by rw [strip_sound hs, hn, List.append_assoc]⟩
  · rintro ⟨n, r, rfl⟩
    unfold matchLine
    rw [List.append_assoc, Calc.strip_append]
    have : ∀ n, (List.replicate n ' ' ++ '=' :: r).dropWhile (· = ' ') = '=' :: r := by
      intro n
      induction n with
      | zero => rfl
      | succ n ih => rw [List.replicate_succ, List.cons_append, List.dropWhile_cons_of_pos (by simp), ih]
    simp only [this]
    rfl

/-- The line that is printed for a variable. -/
def printed (p : String × String × String) : List Char := p.1.toList ++ p.2.1.toList ++ " = ".toList ++ p.2.2.toList

/-- What configure makes of a line: the first variable that matches. -/
def lineOf : List (String × String × String) → List Char → List Char
  | [], l => l
  | p :: ps, l => if matchLine p.1.toList l then printed p else lineOf ps l

/-- The printed lines set their own variable only. -/
theorem printed_match : ∀ s : System, ∀ p ∈ preset s, ∀ x ∈ presetVars, matchLine x.toList (printed p) = decide (x = p.1) := by
  intro s; cases s <;> decide +kernel

theorem preset_vars (s : System) : (preset s).map Prod.fst = presetVars := by cases s <;> rfl

theorem foldl_printed (ps : List (String × String × String)) (l : List Char) (h : ∀ p ∈ ps, matchLine p.1.toList l = false) :
    ps.foldl (fun l p => if matchLine p.1.toList l then printed p else l) l = l := by
  induction ps with
  | nil => rfl
  | cons p ps ih =>
    rw [List.foldl_cons, h p List.mem_cons_self, if_neg (by simp)]
    exact ih fun q hq => h q (List.mem_cons_of_mem _ hq)

theorem foldl_line : ∀ (ps : List (String × String × String)) (l : List Char),
    ps.Pairwise (fun p q => matchLine q.1.toList (printed p) = false) →
    ps.foldl (fun l p => if matchLine p.1.toList l then printed p else l) l = lineOf ps l
  | [], _, _ => rfl
  | p :: ps, l, h => by
    rw [List.pairwise_cons] at h
    rw [List.foldl_cons, lineOf]
    by_cases hm : matchLine p.1.toList l = true
    · rw [if_pos hm, if_pos hm]
      exact foldl_printed ps _ fun q hq => h.1 q hq
    · rw [if_neg hm, if_neg hm]
      exact foldl_line ps l h.2

theorem preset_pairwise (s : System) : (preset s).Pairwise (fun p q => matchLine q.1.toList (printed p) = false) := by
  cases s <;> decide +kernel

theorem configure_map (s : System) (file : List (List Char)) : configure s file = file.map (lineOf (preset s)) := by
  have h : ∀ (ps : List (String × String × String)) (file : List (List Char)), ps.foldl (fun f p => replaceLine p f) file =
      file.map fun l => ps.foldl (fun l p => if matchLine p.1.toList l then printed p else l) l := by
    intro ps
    induction ps with
    | nil => intro file; simp
    | cons p ps ih =>
      intro file
      rw [List.foldl_cons, ih, replaceLine, List.map_map]
      rfl
  rw [configure, h]
  exact List.map_congr_left fun l _ => foldl_line _ l (preset_pairwise s)

/-- The variable that a line sets decides what becomes of it. -/
theorem lineOf_cases : ∀ (ps : List (String × String × String)) (l : List Char),
    (∃ p ∈ ps, Sets p.1 l ∧ lineOf ps l = printed p) ∨ (∀ p ∈ ps, ¬ Sets p.1 l) ∧ lineOf ps l = l
  | [], l => Or.inr ⟨by simp, rfl⟩
  | p :: ps, l => by
    rw [lineOf]
    by_cases hm : matchLine p.1.toList l = true
    · rw [if_pos hm]
      exact Or.inl ⟨p, List.mem_cons_self, (matchLine_iff _ _).mp hm, rfl⟩
    · rw [if_neg hm]
      rcases lineOf_cases ps l with ⟨q, hq, h1, h2⟩ | ⟨h1, h2⟩
      · exact Or.inl ⟨q, List.mem_cons_of_mem _ hq, h1, h2⟩
      · refine Or.inr ⟨fun q hq => ?_, h2⟩
        rcases List.mem_cons.mp hq with rfl | hq
        · exact fun h => hm ((matchLine_iff _ _).mpr h)
        · exact h1 q hq

/-- A line sets at most one of the variables. -/
theorem sets_unique {x y : String} (hx : x ∈ presetVars) (hy : y ∈ presetVars) {l : List Char} (h1 : Sets x l) (h2 : Sets y l) : x = y := by
  have key : ∀ x ∈ presetVars, ∀ y ∈ presetVars, x.toList.take 3 = y.toList.take 3 → x = y := by decide +kernel
  have len : ∀ x ∈ presetVars, 3 ≤ x.toList.length := by decide +kernel
  have tk : ∀ x ∈ presetVars, ∀ l, Sets x l → l.take 3 = x.toList.take 3 := by
    rintro x hx l ⟨n, r, rfl⟩
    rw [List.append_assoc, List.take_append_of_le_length (len x hx)]
  exact key x hx y hy ((tk x hx l h1).symm.trans (tk y hy l h2))

theorem preset_mem {s : System} {p : String × String × String} (hp : p ∈ preset s) : p.1 ∈ presetVars := by
  rw [← preset_vars s]; exact List.mem_map_of_mem hp

theorem lineOf_sets (s : System) {p : String × String × String} (hp : p ∈ preset s) {l : List Char} (h : Sets p.1 l) :
    lineOf (preset s) l = printed p := by
  rcases lineOf_cases (preset s) l with ⟨q, hq, h1, h2⟩ | ⟨h1, _⟩
  · have e := sets_unique (preset_mem hq) (preset_mem hp) h1 h
    have hn : ((preset s).map Prod.fst).Nodup := by rw [preset_vars]; decide +kernel
    rw [h2, List.inj_on_of_nodup_map hn hq hp e]
  · exact absurd h (h1 p hp)

theorem sets_printed {s : System} {p : String × String × String} (hp : p ∈ preset s) : Sets p.1 (printed p) := by
  rw [← matchLine_iff, printed_match s p hp _ (preset_mem hp)]
  simp

theorem lineOf_lineOf (s s' : System) (l : List Char) : lineOf (preset s) (lineOf (preset s') l) = lineOf (preset s) l := by
  rcases lineOf_cases (preset s') l with ⟨p, hp, h1, h2⟩ | ⟨_, h2⟩
  · have hx : p.1 ∈ (preset s).map Prod.fst := by rw [preset_vars]; exact preset_mem hp
    obtain ⟨q, hq, hqp⟩ := List.mem_map.mp hx
    rw [h2, lineOf_sets s hq (by rw [hqp]; exact sets_printed hp), lineOf_sets s hq (by rw [hqp]; exact h1)]
  · rw [h2]

/-- What configure does to config.mk: the lines that set one of six variables are replaced by a line with the value of the preset; all other lines
stay. -/
theorem configure_lines (s : System) (file : List (List Char)) :
    (configure s file).length = file.length ∧ ∀ (i : ℕ) (l : List Char), file[i]? = some l →
      (∀ x ∈ presetVars, ∀ val, presetValue s x = some val → Sets x l →
        ∃ n, (configure s file)[i]? = some (x.toList ++ List.replicate n ' ' ++ '=' :: ' ' :: val.toList)) ∧
      ((∀ x ∈ presetVars, ¬ Sets x l) → (configure s file)[i]? = some l) := by
  rw [configure_map]
  refine ⟨List.length_map .., fun i l hl => ⟨?_, ?_⟩⟩
  · intro x _ val hv hs
    rw [presetValue, Option.map_eq_some_iff] at hv
    obtain ⟨p, hp, rfl⟩ := hv
    have hx : p.1 = x := by simpa using List.find?_some hp
    have hm := List.mem_of_find?_eq_some hp
    subst hx
    obtain ⟨n, hn⟩ : ∃ n, p.2.1.toList = List.replicate n ' ' := by
      have : ∀ s : System, ∀ p ∈ preset s, p.2.1.toList = List.replicate p.2.1.toList.length ' ' := by
        intro s; cases s <;> decide +kernel
      exact ⟨_, this s p hm⟩
    refine ⟨n + 1, ?_⟩
    rw [List.getElem?_map, hl, Option.map_some, lineOf_sets s hm hs, printed, hn, List.replicate_succ']
    simp [List.append_assoc]
  · intro h
    rw [List.getElem?_map, hl, Option.map_some]
    rcases lineOf_cases (preset s) l with ⟨p, hp, h1, _⟩ | ⟨_, h2⟩
    · exact absurd h1 (h _ (preset_mem hp))
    · rw [h2]

/-- Running configure again, or for another system first, makes no difference. -/
theorem configure_idempotent (s s' : System) (file : List (List Char)) : configure s (configure s' file) = configure s file := by
  rw [configure_map, configure_map, configure_map, List.map_map]
  exact List.map_congr_left fun l _ => lineOf_lineOf s s' l

/-- config.mk is shipped as configure writes it on Linux. -/
theorem configure_default : configure .unix (configMk.map String.toList) = configMk.map String.toList := by
  rw [configure_map]; decide +kernel

/-! The names in the presets -/

/-- The values of the variables in `$(...)` of the Makefile (Makefile:6-8). -/
def Version.value (v : Version) : String → Option ℕ
  | "VERSION_MAJOR" => some v.major
  | "VERSION_MINOR" => some v.minor
  | "VERSION_PATCH" => some v.patch
  | _ => none

/-- A text with references `$(NAME)` has an expansion, the references being replaced by the values. -/
inductive Expands (v : Version) : List Char → List Char → Prop
  | nil : Expands v [] []
  | char {c : Char} {l r : List Char} : c ≠ '$' → Expands v l r → Expands v (c :: l) (c :: r)
  | var {n : String} {k : ℕ} {l r : List Char} : v.value n = some k → Expands v l r →
      Expands v ("$(".toList ++ n.toList ++ ")".toList ++ l) ((toString k).toList ++ r)

/-- The name of a file, the parts separated by dots. -/
def nameText (l : List Part) : List Char := ((l.map fun | .str s => s.toList | .num n => (toString n).toList).intersperse ['.']).flatten

theorem Expands.chars (v : Version) {l r : List Char} : ∀ {x : List Char}, '$' ∉ x → Expands v l r → Expands v (x ++ l) (x ++ r)
  | [], _, h => h
  | c :: x, hx, h => by
    rw [List.mem_cons, not_or] at hx
    exact .char (Ne.symm hx.1) (Expands.chars v hx.2 h)

theorem Expands.end (v : Version) {x : List Char} (hx : '$' ∉ x) : Expands v x x := by
  simpa using Expands.chars v hx (.nil (v := v))

/-- The values that configure writes for the names of the libraries, expanded, are the names that `install` uses; links are made where SOSYMLINK is true;
the name that the linker writes into programs on Linux is one of the links (C136). -/
theorem configure_names (s : System) (v : Version) :
    (∃ a so, presetValue s "ANAME" = some a ∧ Expands v a.toList (nameText (s.config v).aname) ∧
      presetValue s "SONAME" = some so ∧ Expands v so.toList (nameText (s.config v).soname)) ∧
    ((s.config v).symlink = true ↔ presetValue s "SOSYMLINK" = some "true") ∧
    (s = .unix → ∃ f, presetValue s "SOFLAGS" = some f ∧ Expands v f.toList ("-shared -Wl,--soname=".toList ++ nameText (soMinor v v.minor))) := by
  have M : v.value "VERSION_MAJOR" = some v.major := rfl
  have m : v.value "VERSION_MINOR" = some v.minor := rfl
  have p : v.value "VERSION_PATCH" = some v.patch := rfl
  have c : ∀ {x l r : List Char}, '$' ∉ x → Expands v l r → Expands v (x ++ l) (x ++ r) := fun h => Expands.chars v h
  have conv : ∀ {x y l : List Char}, Expands v y l → x = y → Expands v x l := fun h e => e ▸ h
  have n1 : '$' ∉ "libtakum".toList := by decide +kernel
  have n2 : '$' ∉ ['.'] := by decide +kernel
  have n3 : '$' ∉ "so".toList := by decide +kernel
  have n4 : '$' ∉ "-shared -Wl,--soname=".toList := by decide +kernel
  have four : ∀ {l r : List Char}, Expands v l r → Expands v _ ("libtakum".toList ++ (['.'] ++ ("so".toList ++ (['.'] ++
      ((toString v.major).toList ++ (['.'] ++ ((toString v.minor).toList ++ r))))))) :=
    fun h => c n1 (c n2 (c n3 (c n2 (.var M (c n2 (.var m h))))))
  refine ⟨?_, by cases s <;> simp [System.config, presetValue, preset], ?_⟩
  · cases s
    · exact ⟨"libtakum.a", _, rfl, .end v (by decide +kernel), rfl, conv (four (c n2 (.var p .nil))) (by decide +kernel)⟩
    · exact ⟨"libtakum.a", _, rfl, .end v (by decide +kernel), rfl, conv (four .nil) (by decide +kernel)⟩
    · exact ⟨"libtakum.a", _, rfl, .end v (by decide +kernel), rfl,
        conv (c n1 (c n2 (.var M (c n2 (.end v (x := "dylib".toList ++ []) (by decide +kernel)))))) (by decide +kernel)⟩
    · exact ⟨"libtakum.lib", "libtakum.dll", rfl, .end v (by decide +kernel), rfl, .end v (by decide +kernel)⟩
  · rintro rfl
    exact ⟨_, rfl, conv (c n4 (four .nil)) (by decide +kernel)⟩

example : presetValue .openbsd "SOSYMLINK" = some "false" ∧ Sets "SOSYMLINK" "SOSYMLINK = true".toList :=
  ⟨by decide +kernel, 1, " true".toList, by decide +kernel⟩
example : configure .openbsd (configMk.map String.toList) ≠ configMk.map String.toList := by rw [configure_map]; decide +kernel

end Takum.Install
