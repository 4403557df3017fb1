import Verif.Model.Operators

/-!
# The table of the operators of the calculator (C73)
-/

namespace Takum.Calc
open Spec (Kind)

/-! ## Specification -/

/-- The names of the takum types. -/
def typeName : Kind → W → String
  | .log, .w8 => "takum8"
  | .log, .w16 => "takum16"
  | .log, .w32 => "takum32"
  | .log, .w64 => "takum64"
  | .lin, .w8 => "takum_linear8"
  | .lin, .w16 => "takum_linear16"
  | .lin, .w32 => "takum_linear32"
  | .lin, .w64 => "takum_linear64"

/-- The operators that are not called as the function. -/
def aliases : List (String × String) := [("+", "addition"), ("-", "subtraction"), ("*", "multiplication"),
  ("/", "division"), ("abs", "absolute"), ("inv", "inversion"), ("sqrt", "square_root")]

/-- The function that an operator stands for. -/
def fnName (identifier : String) : String := (aliases.lookup identifier).getD identifier

/-- A token that can be typed: not empty, no separator, no zero byte, not the name of a register. -/
def Typable (s : List Char) : Prop :=
  s ≠ [] ∧ ' ' ∉ s ∧ '\n' ∉ s ∧ '\x00' ∉ s ∧ ¬ (s.length = 1 ∧ ∃ c ∈ s, 'a' ≤ c ∧ c ≤ 'z')

instance (s : List Char) : Decidable (Typable s) := by unfold Typable; infer_instance

/-- An operator that calls a function of the library through the table. -/
def OpType.calls : OpType → Bool
  | .takumTakum | .takumTakumTakum | .takumInt64Takum => true
  | _ => false

/-! ## Proof -/

theorem strip_append (p s : List Char) : strip p (p ++ s) = some s := by
  induction p with
  | nil => rfl
  | cons a p ih => rw [List.cons_append, strip, if_pos rfl, ih]

theorem strip_log_lin (w : W) (s : List Char) : strip (typePrefix .log w).toList ((typePrefix .lin w).toList ++ s) = none := by
  cases w <;> rfl

theorem typePrefix_eq (k : Kind) (w : W) : typeName k w ++ "_" = typePrefix k w := by cases k <;> cases w <;> decide +kernel

theorem find_name {α : Type} {names : List (String × α)} (hn : (names.map Prod.fst).Nodup) {p : String × α} (hp : p ∈ names) :
    (names.find? fun q => q.1.toList = p.1.toList) = some p := by
  induction names with
  | nil => cases hp
  | cons q qs ih =>
    rw [List.map_cons, List.nodup_cons] at hn
    rcases List.mem_cons.mp hp with rfl | h
    · rw [List.find?_cons_of_pos (by simp)]
    · rw [List.find?_cons_of_neg, ih hn.2 h]
      intro hc
      exact hn.1 (by rw [String.ext (of_decide_eq_true hc)]; exact List.mem_map_of_mem h)

/-- A name made of the type and an entry of the list is resolved to that entry. -/
theorem resolve_name {α : Type} {names : List (String × α)} (hn : (names.map Prod.fst).Nodup) {p : String × α} (hp : p ∈ names)
    (k : Kind) (w : W) : resolve names w (typeName k w ++ "_" ++ p.1) = some (k, p.2) := by
  unfold resolve
  rw [typePrefix_eq, String.toList_append]
  cases k with
  | log => rw [strip_append]; simp only; rw [find_name hn hp]; rfl
  | lin => rw [strip_log_lin, strip_append]; simp only; rw [find_name hn hp]; rfl

/-! ## C73 -/

/-- The operators differ, each can be typed, and none hides behind a register. Each function in the table is the
one that the operator stands for, for the type of the field it is in. There is a type switch for each of the eight
types, under its name, and no other. -/
theorem operator_table :
    (operators.map Operator.identifier).Nodup ∧
    (∀ o ∈ operators, Typable o.identifier.toList) ∧
    (∀ k w, ∀ o ∈ operators, o.type.calls = true → o.implementation.field k w = some (typeName k w ++ "_" ++ fnName o.identifier)) ∧
    (∀ k w, ⟨typeName k w, .switchTakumType, .type k w⟩ ∈ operators) ∧
    ∀ o ∈ operators, o.type = .switchTakumType → ∃ k w, o = ⟨typeName k w, .switchTakumType, .type k w⟩ := by
  refine ⟨by decide +kernel, by decide +kernel, ?_, ?_, ?_⟩
  · intro k w; cases k <;> cases w <;> decide +kernel
  · intro k w; cases k <;> cases w <;> decide +kernel
  · intro o ho ht
    have h : ∀ o ∈ operators, o.type = .switchTakumType → o.implementation ∈ [Impl.type .log .w8, .type .log .w16, .type .log .w32,
        .type .log .w64, .type .lin .w8, .type .lin .w16, .type .lin .w32, .type .lin .w64] ∧
        ∀ k ∈ [Kind.log, .lin], ∀ w ∈ [W.w8, .w16, .w32, .w64], o.implementation = .type k w →
          o = ⟨typeName k w, .switchTakumType, .type k w⟩ := by decide +kernel
    obtain ⟨h1, h2⟩ := h o ho ht
    simp only [List.mem_cons, List.not_mem_nil, or_false] at h1
    rcases h1 with h | h | h | h | h | h | h | h <;> exact ⟨_, _, h2 _ (by decide) _ (by decide) h⟩

example : (⟨"sqrt", .takumTakum, .fns "takum8_square_root" "takum16_square_root" "takum32_square_root" "takum64_square_root"
    "takum_linear8_square_root" "takum_linear16_square_root" "takum_linear32_square_root" "takum_linear64_square_root"⟩ : Operator)
    ∈ operators ∧ OpType.calls .takumTakum = true := by decide +kernel

/-- The functions of one argument without an operator. -/
def Missing (f : Fn1) : Prop := f = .u .ten_raised ∨ f = .u .ten_raised_minus_1 ∨ f = .u .two_raised ∨ f = .u .two_raised_minus_1

instance (f : Fn1) : Decidable (Missing f) := by unfold Missing; infer_instance

/-- Compiled, the table calls a function of the type that is asked for, by one argument, by two, or by one and an
integer, as its name says; and it has every function of the library except the powers of 10 and 2 and `power`, which
is reached by `^`. -/
theorem operator_functions :
    (∀ k w, ∀ o ∈ operators, o.type = .takumTakum → ∃ f s, (fnName o.identifier, f) ∈ fn1Names ∧ o.implementation.field k w = some s ∧
      resolve fn1Names w s = some (k, f)) ∧
    (∀ k w, ∀ o ∈ operators, o.type = .takumTakumTakum → ∃ f s, (fnName o.identifier, f) ∈ fn2Names ∧
      o.implementation.field k w = some s ∧ resolve fn2Names w s = some (k, f)) ∧
    (∀ k w, ∀ o ∈ operators, o.type = .takumInt64Takum → o.identifier = "root" ∧ ∃ s, o.implementation.field k w = some s ∧
      resolve [("root", ())] w s = some (k, ())) ∧
    (∀ p ∈ fn1Names, Missing p.2 ∨ ∃ o ∈ operators, o.type = .takumTakum ∧ fnName o.identifier = p.1) ∧
    (∀ p ∈ fn2Names, p.2 = .b .power ∨ ∃ o ∈ operators, o.type = .takumTakumTakum ∧ fnName o.identifier = p.1) := by
  have key1 : ∀ o ∈ operators, o.type = .takumTakum → ∃ p ∈ fn1Names, p.1 = fnName o.identifier := by decide +kernel
  have key2 : ∀ o ∈ operators, o.type = .takumTakumTakum → ∃ p ∈ fn2Names, p.1 = fnName o.identifier := by decide +kernel
  have key3 : ∀ o ∈ operators, o.type = .takumInt64Takum → o.identifier = "root" := by decide +kernel
  have tab := operator_table.2.2.1
  refine ⟨fun k w o ho ht => ?_, fun k w o ho ht => ?_, fun k w o ho ht => ?_, by decide +kernel, by decide +kernel⟩
  · obtain ⟨p, hp, e⟩ := key1 o ho ht
    exact ⟨p.2, _, e ▸ hp, tab k w o ho (by rw [ht]; rfl), e ▸ resolve_name (by decide +kernel) hp k w⟩
  · obtain ⟨p, hp, e⟩ := key2 o ho ht
    exact ⟨p.2, _, e ▸ hp, tab k w o ho (by rw [ht]; rfl), e ▸ resolve_name (by decide +kernel) hp k w⟩
  · have h0 := key3 o ho ht
    refine ⟨h0, _, tab k w o ho (by rw [ht]; rfl), ?_⟩
    rw [h0, show fnName "root" = "root" by decide +kernel]
    exact resolve_name (p := ("root", ())) (by simp) (by simp) k w

/-- The hypotheses are met by `sin`, `hypotenuse` and `root`. -/
example : (∃ o ∈ operators, o.type = .takumTakum ∧ o.identifier = "sin" ∧
      resolve fn1Names .w16 "takum_linear16_sin" = some (.lin, .u .sin)) ∧
    (∃ o ∈ operators, o.type = .takumTakumTakum ∧ o.identifier = "hypotenuse") ∧
    (∃ o ∈ operators, o.type = .takumInt64Takum) := by decide +kernel

end Takum.Calc
