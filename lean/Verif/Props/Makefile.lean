import Verif.Props.Interface

/-!
# The prerequisites in the Makefile (C135)

A target is up to date for make when it is newer than its prerequisites; a file that it is made from and that is no prerequisite can change without
the target being made again.
-/

namespace Takum.Make
open Takum.Iface Takum.Man
open Spec (Kind)
open Takum.Calc (typeName)

/-! ## Specification -/

/-- The files that are read when a file is compiled: the file and, transitively, those it includes. -/
inductive Reads : String → String → Prop
  | self (f : String) : Reads f f
  | include {f g h : String} (l : List String) : (f, l) ∈ includes → g ∈ l → Reads g h → Reads f h

/-- The object is compiled again after each change of a file that it is compiled from. -/
def Fresh (x : String) : Prop := ∀ f, Reads (x ++ ".c") f → f ∈ prerequisites x

/-- The objects without a line in the Makefile. -/
def unruled : List String := ["src/10_raised", "src/2_raised", "src/absolute", "src/integer_power", "src/root", "src/sign"]

/-- The objects that include src/codec.h, which is not among their prerequisites. -/
def codecUsers : List String :=
  ["test/codec", "src/codec", "src/conversion", "src/division", "src/multiplication", "src/square_root", "src/subtraction"]

/-- The scripts that are run for a page. -/
inductive Runs : Fn → Next → Prop
  | self (f : Fn) : Runs f (.script f)
  | template {f : Fn} {s : Script} {t : Template} : script f = some s → s.next = .template t → Runs f (.template t)
  | call {f g : Fn} {s : Script} {n : Next} : script f = some s → s.next = .script g → Runs g n → Runs f n

/-- The page is written again after each change of a script that is run for it. -/
def FreshPage (f : Fn) : Prop := ∀ n, Runs f n → n ∈ pagePrerequisites f

/-- The pages whose prerequisites are complete: those of the functions between logarithmic takums and floats. -/
def Logarithmic (f : Fn) : Prop := f.k = .log ∧ ∀ w, f.base ≠ "from_" ++ typeName .lin w

instance (f : Fn) : Decidable (Logarithmic f) :=
  decidable_of_iff (f.k = .log ∧ ∀ w ∈ [W.w8, .w16, .w32, .w64], f.base ≠ "from_" ++ typeName .lin w) (by
    unfold Logarithmic
    refine and_congr_right fun _ => ⟨fun h w => h w (by cases w <;> simp), fun h w _ => h w⟩)

/-! ## Proof -/

theorem lookup_mem {f : String} {l : List String} : ∀ {t : List (String × List String)}, (t.map Prod.fst).Nodup → (f, l) ∈ t →
    t.lookup f = some l
  | [], _, h => by cases h
  | p :: t, hn, h => by
    rw [List.map_cons, List.nodup_cons] at hn
    rcases List.mem_cons.mp h with rfl | h'
    · simp [List.lookup]
    · have : f ≠ p.1 := by
        rintro rfl
        exact hn.1 (List.mem_map.mpr ⟨_, h', rfl⟩)
      rw [List.lookup_cons, beq_eq_false_iff_ne.mpr this]
      exact lookup_mem hn.2 h'

theorem includes_nodup : (includes.map Prod.fst).Nodup := by decide +kernel

/-- The prerequisites contain the source and are closed under inclusion. -/
def freshB (x : String) : Bool :=
  (prerequisites x).contains (x ++ ".c") &&
    (prerequisites x).all fun f => ((includes.lookup f).getD []).all fun g => (prerequisites x).contains g

theorem fresh_of {x : String} (h : freshB x = true) : Fresh x := by
  simp only [freshB, Bool.and_eq_true, List.all_eq_true, List.contains_iff_mem] at h
  have key : ∀ a f, Reads a f → a ∈ prerequisites x → f ∈ prerequisites x := by
    intro a f hr
    induction hr with
    | self => exact id
    | «include» l hl hg _ ih =>
      intro ha
      refine ih (h.2 _ ha _ ?_)
      rw [lookup_mem includes_nodup hl]
      exact hg
  intro f hf
  exact key _ f hf h.1

/-- The source is no prerequisite, or a file that it includes is none. -/
def staleB (x : String) : Bool :=
  !((prerequisites x).contains (x ++ ".c")) ||
    includes.any fun p => p.1 == x ++ ".c" && p.2.any fun g => !((prerequisites x).contains g)

theorem stale_of {x : String} (h : staleB x = true) : ¬ Fresh x := by
  intro hf
  rcases Bool.or_eq_true _ _ ▸ h with h | h
  · have := hf _ (Reads.self _)
    rw [← List.contains_iff_mem] at this
    rw [this] at h
    cases h
  · obtain ⟨p, hp, h⟩ := List.any_eq_true.mp h
    simp only [Bool.and_eq_true, beq_iff_eq, List.any_eq_true] at h
    obtain ⟨h1, g, hg, h⟩ := h
    have := hf g (Reads.include p.2 (by rw [← h1]; exact hp) hg (Reads.self g))
    rw [← List.contains_iff_mem] at this
    rw [this] at h
    cases h

theorem objects_split : (objects.all fun x => if unruled.contains x || codecUsers.contains x then staleB x else freshB x) = true := by
  decide +kernel

/-- The prerequisites contain the script and are closed under calls. -/
def freshPageB (f : Fn) : Bool :=
  let l := pagePrerequisites f
  l.contains (.script f) && l.all fun n => match n with
    | .template _ => true
    | .script g => (script g).all fun s => l.contains s.next

theorem fresh_page_of {f : Fn} (h : freshPageB f = true) : FreshPage f := by
  simp only [freshPageB, Bool.and_eq_true, List.all_eq_true, List.contains_iff_mem] at h
  have step : ∀ g s, .script g ∈ pagePrerequisites f → script g = some s → s.next ∈ pagePrerequisites f := by
    intro g s hg hs
    have := h.2 _ hg
    simp only [hs, Option.all_some, List.contains_iff_mem] at this
    exact this
  have key : ∀ g n, Runs g n → .script g ∈ pagePrerequisites f → n ∈ pagePrerequisites f := by
    intro g n hr
    induction hr with
    | self => exact id
    | template hs ht => intro hg; rw [← ht]; exact step _ _ hg hs
    | call hs ht _ ih => intro hg; exact ih (by rw [← ht]; exact step _ _ hg hs)
  intro n hn
  exact key _ n hn h.1

theorem pages_split : (header.all fun p => if Logarithmic p.fn then freshPageB p.fn else (pagePrerequisites p.fn).isEmpty) = true := by
  decide +kernel

/-! ## C135 -/

/-- Which objects are compiled again whenever something that they are compiled from changes: all but thirteen. -/
theorem make_objects_partial (x : String) (hx : x ∈ objects) : Fresh x ↔ x ∉ unruled ∧ x ∉ codecUsers := by
  have h := List.all_eq_true.mp objects_split x hx
  by_cases hc : (unruled.contains x || codecUsers.contains x) = true
  · rw [if_pos hc] at h
    simp only [Bool.or_eq_true, List.contains_iff_mem] at hc
    constructor
    · exact fun hf => absurd hf (stale_of h)
    · rintro ⟨h1, h2⟩
      rcases hc with hc | hc
      · exact absurd hc h1
      · exact absurd hc h2
  · rw [if_neg hc] at h
    simp only [Bool.or_eq_true, List.contains_iff_mem, not_or] at hc
    exact ⟨fun _ => hc, fun _ => fresh_of h⟩

/-- After a change of src/absolute.c the library is not compiled again, nor is the codec after a change of its header; the Makefile has lines for two
files that do not exist. -/
theorem make_objects_refuted : ("src/absolute" ∈ objects ∧ ¬ Fresh "src/absolute") ∧ ("src/codec" ∈ objects ∧ ¬ Fresh "src/codec") ∧
    (∀ x ∈ ["src/exp2", "src/exp10"], x ∈ objectRules.map Prod.fst ∧ x ∉ objects ∧ x ++ ".c" ∉ includes.map Prod.fst) :=
  ⟨⟨by decide +kernel, stale_of (by decide +kernel)⟩, ⟨by decide +kernel, stale_of (by decide +kernel)⟩, by decide +kernel⟩

/-- Which pages are written again whenever a script that is run for them changes: those of the logarithmic types except for the conversions from the
linear ones. -/
theorem make_pages_partial (p : Proto) (hp : p ∈ header) : FreshPage p.fn ↔ Logarithmic p.fn := by
  have h := List.all_eq_true.mp pages_split p hp
  by_cases hl : Logarithmic p.fn
  · rw [if_pos hl] at h
    exact ⟨fun _ => hl, fun _ => fresh_page_of h⟩
  · rw [if_neg hl] at h
    refine ⟨fun hf => ?_, fun h => absurd h hl⟩
    have := hf _ (Runs.self _)
    rw [List.isEmpty_iff.mp h] at this
    cases this

/-- The page of takum_linear16_sin is not written again after a change of its script. -/
theorem make_pages_refuted : ∃ p ∈ header, p.fn = ⟨.lin, .w16, "sin"⟩ ∧ ¬ FreshPage p.fn := by
  have h : (header.any fun p => decide (p.fn = ⟨.lin, .w16, "sin"⟩)) = true := by decide +kernel
  obtain ⟨p, hp, h⟩ := List.any_eq_true.mp h
  have h := of_decide_eq_true h
  refine ⟨p, hp, h, ?_⟩
  rw [make_pages_partial p hp, h]
  decide +kernel

example : "test/sin" ∈ objects ∧ "test/sin" ∉ unruled ∧ "test/sin" ∉ codecUsers := by decide +kernel
example : Logarithmic ⟨.log, .w16, "sin"⟩ := by decide +kernel
example : Reads "src/conversion.c" "takum.h" :=
  .include _ (List.mem_of_find?_eq_some (p := fun f => f.1 == "src/conversion.c") rfl) (by decide +kernel) (.self _)

end Takum.Make
