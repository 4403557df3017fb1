import Verif.Model.Makefile
import Verif.Props.Operators

/-!
# The interface of the library (C131) and the linkage of its helpers (C133)
-/

namespace Takum.Iface
open Spec (Kind)
open Takum.Calc (typeName fn1Names fn2Names Operator operators OpType)

/-! ## Specification -/

/-- Everything that the files in `src` define of the interface. -/
def defined : List Proto := sources.flatMap fun f => f.2.flatMap Def.protos

/-- The takum types. -/
def types : List (Kind × W) := [.log, .lin].flatMap fun k => [.w8, .w16, .w32, .w64].map fun w => (k, w)

/-- The floating-point types with their names in takum.h. -/
def floats : List (String × CType) := [("float32", .float), ("float64", .double), ("extended_float", .longDouble)]

/-- What takum.h has to declare for one type: the functions of one and of two takums that are modelled, `integer_power`, `root`, `precision`, and the
conversions from every other takum type, from and to the floating-point types. -/
def ExpectedFor (kw : Kind × W) : List Proto :=
  let t := CType.takum kw.1 kw.2
  let f := fun b => Fn.mk kw.1 kw.2 b
  fn1Names.map (fun b => ⟨t, f b.1, [t]⟩) ++ fn2Names.map (fun b => ⟨t, f b.1, [t, t]⟩) ++
    ["integer_power", "root"].map (fun b => ⟨t, f b, [t, .int64]⟩) ++ [⟨.uint8, f "precision", [t]⟩] ++
    (types.filter (· ≠ kw)).map (fun s => ⟨t, f ("from_" ++ typeName s.1 s.2), [.takum s.1 s.2]⟩) ++
    floats.map (fun s => ⟨t, f ("from_" ++ s.1), [s.2]⟩) ++ floats.map (fun s => ⟨s.2, f ("to_" ++ s.1), [t]⟩)

/-- The name of a function in C. -/
def Fn.text (f : Fn) : String := typeName f.k f.w ++ "_" ++ f.base

/-- The arguments that the calculator passes to the functions of an operator, before the result. -/
def opArgs (k : Kind) (w : W) : OpType → Option (List CType)
  | .takumTakum => some [.takum k w]
  | .takumTakumTakum => some [.takum k w, .takum k w]
  | .takumInt64Takum => some [.takum k w, .int64]
  | _ => none

/-- The other functions with external linkage that no header of the library declares. -/
def undeclared : List String := (sources.flatMap fun f => f.2.filterMap Def.external).filter fun n => n ∉ internal

/-- The prototypes of one type. -/
def ofType (l : List Proto) (k : Kind) (w : W) : List Proto := l.filter fun p => p.fn.k = k ∧ p.fn.w = w

/-! ## Proof -/

theorem header_perm : header.isPerm defined = true := by decide +kernel

theorem sources_perm : (sources.map fun f => "src/" ++ f.1).isPerm Make.srcNames = true := by decide +kernel

theorem bases_nodup : ∀ k w, ((ofType header k w).map fun p => p.fn.base).Nodup := by
  intro k w; cases k <;> cases w <;> decide +kernel

theorem nodup_of_types : ∀ l : List Proto, (∀ k w, ((ofType l k w).map fun p => p.fn.base).Nodup) → (l.map Proto.fn).Nodup
  | [], _ => List.nodup_nil
  | p :: l, h => by
    rw [List.map_cons, List.nodup_cons]
    constructor
    · intro hm
      obtain ⟨q, hq, hpq⟩ := List.mem_map.mp hm
      have := h p.fn.k p.fn.w
      rw [ofType, List.filter_cons_of_pos (by simp), List.map_cons, List.nodup_cons] at this
      exact this.1 (List.mem_map.mpr ⟨q, List.mem_filter.mpr ⟨hq, by simp [hpq]⟩, by rw [hpq]⟩)
    · refine nodup_of_types l fun k w => (h k w).sublist ?_
      exact ((List.sublist_cons_self p l).filter _).map _

theorem expected_perm : ∀ k w, (ofType header k w).isPerm (ExpectedFor (k, w)) = true := by
  intro k w; cases k <;> cases w <;> decide +kernel

/-- The functions of the table are looked for where they are declared: the base of each is the one of the operator. -/
def declaredOp (o : Operator) (k : Kind) (w : W) : Bool :=
  match opArgs k w o.type with
  | none => true
  | some a => (ExpectedFor (k, w)).contains ⟨.takum k w, ⟨k, w, Takum.Calc.fnName o.identifier⟩, a⟩ &&
    o.implementation.field k w == some (typeName k w ++ "_" ++ Takum.Calc.fnName o.identifier)

theorem operators_declared : ∀ k w, (operators.all fun o => declaredOp o k w) = true := by
  intro k w; cases k <;> cases w <;> decide +kernel

def helperOk (d : Def) : Bool :=
  match d with
  | .helper false n => internal.contains n && (n.startsWith "codec_" || n.startsWith "util_")
  | _ => true

theorem helpers_ok : (sources.all fun f => f.1 == "arccot" || f.1 == "arccsc" || f.2.all helperOk) = true := by decide +kernel

/-! ## C131 -/

/-- Every function that takum.h declares is defined exactly once in the files that the Makefile compiles, with the types of the declaration, and
every function with a takum name that is defined is declared. -/
theorem interface_defined : header.Perm defined ∧ (header.map Proto.fn).Nodup ∧
    (sources.map fun f => "src/" ++ f.1).Perm Make.srcNames :=
  ⟨List.isPerm_iff.mp header_perm, nodup_of_types _ bases_nodup, List.isPerm_iff.mp sources_perm⟩

/-- takum.h declares for each of the eight types the same functions, which are those of the model. -/
theorem interface_complete (k : Kind) (w : W) : (ofType header k w).Perm (ExpectedFor (k, w)) := List.isPerm_iff.mp (expected_perm k w)

example : ofType header .lin .w16 ≠ [] := by decide +kernel

/-- Every function in the table of the calculator is declared, with the types that the table is used with. -/
theorem interface_calculator (o : Operator) (ho : o ∈ operators) (k : Kind) (w : W) (a : List CType) (ha : opArgs k w o.type = some a) :
    ∃ b, o.implementation.field k w = some (typeName k w ++ "_" ++ b) ∧ ⟨.takum k w, ⟨k, w, b⟩, a⟩ ∈ header := by
  have h := List.all_eq_true.mp (operators_declared k w) o ho
  rw [declaredOp, ha] at h
  simp only [Bool.and_eq_true, List.contains_iff_mem, beq_iff_eq] at h
  refine ⟨_, h.2, ?_⟩
  have := (interface_complete k w).mem_iff.mpr h.1
  exact (List.mem_filter.mp this).1

example : ∃ o ∈ operators, opArgs .lin .w8 o.type = some [.takum .lin .w8, .int64] := by
  have h : (operators.any fun o => opArgs .lin .w8 o.type == some [.takum .lin .w8, .int64]) = true := by decide +kernel
  simpa using h

/-! ## C133 -/

/-- Four functions of the library are neither static nor declared nor prefixed: they can clash with a function of the program that uses it. -/
theorem linkage_refuted : undeclared = ["arccot_over_pil", "arccot_over_pi", "arccsc_over_pil", "arccsc_over_pi"] := by decide +kernel

/-- In the other files every function is static, or part of the interface, or declared in a header of the library with one of its prefixes. -/
theorem linkage_partial (f : String × List Def) (hf : f ∈ sources) (h1 : f.1 ≠ "arccot") (h2 : f.1 ≠ "arccsc") (n : String)
    (hn : .helper false n ∈ f.2) : n ∈ internal ∧ (n.startsWith "codec_" ∨ n.startsWith "util_") := by
  have h := List.all_eq_true.mp helpers_ok f hf
  simp only [Bool.or_eq_true, beq_iff_eq, h1, h2, false_or] at h
  have := List.all_eq_true.mp h _ hn
  simpa [helperOk] using this

example : ∃ f ∈ sources, f.1 = "codec" ∧ .helper false "codec_takum8_to_l" ∈ f.2 :=
  ⟨_, List.mem_of_find?_eq_some (p := fun f => f.1 == "codec") rfl, by decide +kernel, by decide +kernel⟩

end Takum.Iface
