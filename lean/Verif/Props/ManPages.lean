import Verif.Props.Interface
import Verif.ManualPages

/-!
# The manual pages (C132, C134)
-/

namespace Takum.Man
open Spec (Kind)
open Takum.Iface
open Takum.Calc (typeName fn1Names)

/-! ## Specification -/

/-- The name of a type in C. -/
def cText : CType → String
  | .takum k w => typeName k w
  | .int64 => "int64_t" | .uint8 => "uint8_t" | .float => "float" | .double => "double" | .longDouble => "long double"

/-- The constant NaR of a type, or `NAN`. -/
def narText : CType → String
  | .takum .log .w8 => "TAKUM8_NAR" | .takum .log .w16 => "TAKUM16_NAR" | .takum .log .w32 => "TAKUM32_NAR"
  | .takum .log .w64 => "TAKUM64_NAR" | .takum .lin .w8 => "TAKUM_LINEAR8_NAR" | .takum .lin .w16 => "TAKUM_LINEAR16_NAR"
  | .takum .lin .w32 => "TAKUM_LINEAR32_NAR" | .takum .lin .w64 => "TAKUM_LINEAR64_NAR"
  | _ => "NAN"

/-- The page documents the prototype: the type, the name, the arguments; when it says that NaR is returned, it names the constant of the type that is
returned; the page that it refers to is the page of a function of the same type. -/
def Documents (pg : Page) (p : Proto) : Prop :=
  pg.ret = cText p.ret ∧ pg.name = p.fn.text ∧ pg.args = p.args.map cText ∧
  (∀ c n, pg.nan = some (c, n) → n = narText p.ret) ∧
  ∀ s, pg.seeAlso = some s → ∃ q ∈ header, q.fn.k = p.fn.k ∧ q.fn.w = p.fn.w ∧ q.fn.text = s

/-- The conditions under which the pages of the functions of one takum say that NaR is returned, as they are written. -/
inductive Cond
  | nonpos | leMinusOne | outsideClosed | inOpen | zero | ltOne | outsideOpen | outsideHalf | inClosed | integral | negative
  deriving DecidableEq, Repr

/-- What the words mean. -/
def Cond.holds : Cond → ℝ → Prop
  | .nonpos, x => x ≤ 0
  | .leMinusOne, x => x ≤ -1
  | .outsideClosed, x => ¬ (-1 ≤ x ∧ x ≤ 1)
  | .inOpen, x => -1 < x ∧ x < 1
  | .zero, x => x = 0
  | .ltOne, x => x < 1
  | .outsideOpen, x => ¬ (-1 < x ∧ x < 1)
  | .outsideHalf, x => ¬ (0 < x ∧ x ≤ 1)
  | .inClosed, x => -1 ≤ x ∧ x ≤ 1
  | .integral, x => ∃ n : ℤ, x = n
  | .negative, x => x < 0

/-- The words. -/
def phrases : List (String × Cond) := [
  ("\\n.Va a\\nis smaller than or equal to zero", .nonpos),
  ("\\n.Va a\\nis smaller than or equal to minus one", .leMinusOne),
  ("\\n.Va a\\nis outside [-1, 1]", .outsideClosed),
  ("\\n.Va a\\nis in (-1, 1)", .inOpen),
  ("\\n.Va a\\nis zero", .zero), ("\\n.Va a\\n is zero", .zero), ("\\n.Va a\\nis in zero", .zero),
  ("\\n.Va a\\nis smaller than one", .ltOne),
  ("\\n.Va a\\nis outside (-1,1)", .outsideOpen),
  ("\\n.Va a\\nis outside (0,1]", .outsideHalf),
  ("\\n.Va a\\nis in [-1, 1]", .inClosed),
  ("\\n.Va a\\nis an integral value", .integral),
  ("\\n.Va a\\nis smaller than zero", .negative)]

/-- The page says that the function returns NaR for `x`; `none` when the words are not known. -/
def Page.says (pg : Page) : Option (ℝ → Prop) :=
  match pg.nan with
  | none => some fun _ => False
  | some (s, _) => (phrases.lookup s).map Cond.holds

/-! ## Proof -/

/-- `Documents`, to be evaluated. -/
def documents (p : Proto) : Bool :=
  match page p.fn with
  | none => false
  | some pg => pg.ret == cText p.ret && pg.name == p.fn.text && pg.args == p.args.map cText &&
    (match pg.nan with | none => true | some (_, n) => n == narText p.ret) &&
    (match pg.seeAlso with
     | none => true
     | some s => (ExpectedFor (p.fn.k, p.fn.w)).any fun q => q.fn.text == s)

theorem all_documented : header.all documents = true := by decide +kernel

theorem names_man3 : (header.map Proto.fn).isPerm Make.man3 = true := by decide +kernel

/-- The condition of the page, to be evaluated. -/
def readPage (f : Fn) : Option (Option Cond) :=
  (page f).bind fun pg => match pg.nan with
  | none => some none
  | some (s, _) => (phrases.lookup s).map some

/-- `ManualNaR` as one of the conditions. -/
def condOf : UFun → Option Cond
  | .ln | .lb | .lg => some .nonpos
  | .ln_1_plus | .lb_1_plus | .lg_1_plus => some .leMinusOne
  | .arcsin | .arccos | .arcsin_over_pi | .arccos_over_pi | .arcsec_over_pi => some .outsideClosed
  | .arccsc | .arcsec | .arccsc_over_pi => some .inOpen
  | .csch | .coth | .arcsch | .cot => some .zero
  | .arcosh => some .ltOne
  | .artanh => some .outsideOpen
  | .arsech => some .outsideHalf
  | .arcoth => some .inClosed
  | .csc_pi_times | .cot_pi_times => some .integral
  | _ => none

theorem condOf_holds (u : UFun) (x : ℝ) : (match condOf u with | none => False | some c => c.holds x) ↔ ManualNaR u x := by
  have h1 : ¬ (-1 ≤ x ∧ x ≤ 1) ↔ 1 < |x| := by rw [← abs_le, not_le]
  have h2 : (-1 < x ∧ x < 1) ↔ |x| < 1 := abs_lt.symm
  have h3 : ¬ (-1 < x ∧ x < 1) ↔ 1 ≤ |x| := by rw [← abs_lt, not_lt]
  have h4 : (-1 ≤ x ∧ x ≤ 1) ↔ |x| ≤ 1 := abs_le.symm
  have h5 : ¬ (0 < x ∧ x ≤ 1) ↔ x ≤ 0 ∨ 1 < x := by rw [not_and_or, not_lt, not_le]
  cases u <;> first | exact Iff.rfl | exact h1 | exact h2 | exact h3 | exact h4 | exact h5

theorem pages_read : ∀ k w, (fn1Names.all fun b => match b.2 with
    | .u u => readPage ⟨k, w, b.1⟩ == some (condOf u)
    | _ => true) = true := by
  intro k w; cases k <;> cases w <;> decide +kernel

/-! ## C132 -/

/-- Every function of takum.h has a manual page, whose synopsis is the prototype. -/
theorem manual_synopsis (p : Proto) (hp : p ∈ header) : ∃ pg, page p.fn = some pg ∧ Documents pg p := by
  have h := List.all_eq_true.mp all_documented p hp
  unfold documents at h
  cases hpg : page p.fn with
  | none => rw [hpg] at h; cases h
  | some pg =>
    rw [hpg] at h
    simp only [Bool.and_eq_true, beq_iff_eq] at h
    obtain ⟨⟨⟨⟨h1, h2⟩, h3⟩, h4⟩, h5⟩ := h
    refine ⟨pg, rfl, h1, h2, h3, ?_, ?_⟩
    · intro c n hn
      rw [hn] at h4
      simpa using h4
    · intro s hs
      rw [hs] at h5
      obtain ⟨q, hq, hqs⟩ := List.any_eq_true.mp h5
      have := (interface_complete p.fn.k p.fn.w).mem_iff.mpr hq
      obtain ⟨h6, h7⟩ := List.mem_filter.mp this
      simp only [decide_eq_true_eq] at h7
      exact ⟨q, h6, h7.1, h7.2, by simpa using hqs⟩

/-- The Makefile builds a page for each function, and no other. -/
theorem manual_list : (header.map Proto.fn).Perm Make.man3 := List.isPerm_iff.mp names_man3

/-- What a page says about NaR, in words, is `ManualNaR`, for which C106 compares the pages with the functions. -/
theorem manual_words (b : String) (u : UFun) (hb : (b, .u u) ∈ fn1Names) (k : Kind) (w : W) :
    ∃ pg c, page ⟨k, w, b⟩ = some pg ∧ pg.says = some c ∧ ∀ x, c x ↔ ManualNaR u x := by
  have h := List.all_eq_true.mp (pages_read k w) _ hb
  simp only [beq_iff_eq] at h
  unfold readPage at h
  cases hpg : page ⟨k, w, b⟩ with
  | none => rw [hpg] at h; cases h
  | some pg =>
    rw [hpg] at h
    simp only [Option.bind_some] at h
    refine ⟨pg, fun x => (match condOf u with | none => False | some c => c.holds x), rfl, ?_, condOf_holds u⟩
    unfold Page.says
    cases hn : pg.nan with
    | none =>
      rw [hn] at h
      simp only [Option.some.injEq] at h
      rw [← h]
    | some c =>
      rw [hn] at h
      simp only at h ⊢
      cases hl : phrases.lookup c.1 with
      | none => rw [hl] at h; cases h
      | some d =>
        rw [hl] at h
        simp only [Option.map_some, Option.some.injEq] at h
        rw [← h]
        rfl

example : ("arcsec_over_pi", .u .arcsec_over_pi) ∈ fn1Names := by decide +kernel
example : ∃ p ∈ header, (page p.fn).bind Page.seeAlso ≠ none := by
  have h : (header.any fun p => ((page p.fn).bind Page.seeAlso).isSome) = true := by decide +kernel
  obtain ⟨p, hp, h⟩ := List.any_eq_true.mp h
  exact ⟨p, hp, Option.isSome_iff_ne_none.mp h⟩

/-! ## C134 -/

/-- The type that the page gives for the result in RETURN VALUES ("as a ..."). -/
def rightResult (p : Proto) : Bool := ((page p.fn).bind Page.resultType) == some (cText p.ret)

theorem results_right : (header.all fun p => p.fn.base == "precision" || rightResult p) = true := by decide +kernel

/-- The page of `precision` says that the result is a takum; it is a `uint8_t`. -/
theorem manual_result_refuted (k : Kind) (w : W) :
    ⟨.uint8, ⟨k, w, "precision"⟩, [.takum k w]⟩ ∈ header ∧
    ∃ pg, page ⟨k, w, "precision"⟩ = some pg ∧ pg.ret = "uint8_t" ∧ pg.resultType = some (typeName k w) := by
  refine ⟨?_, ?_⟩
  · have h : (ExpectedFor (k, w)).contains ⟨.uint8, ⟨k, w, "precision"⟩, [.takum k w]⟩ = true := by
      cases k <;> cases w <;> decide +kernel
    exact (List.mem_filter.mp ((interface_complete k w).mem_iff.mpr (List.contains_iff_mem.mp h))).1
  · have h : ((page ⟨k, w, "precision"⟩).any fun pg => pg.ret == "uint8_t" && pg.resultType == some (typeName k w)) = true := by
      cases k <;> cases w <;> decide +kernel
    cases hp : page ⟨k, w, "precision"⟩ with
    | none => rw [hp] at h; cases h
    | some pg =>
      rw [hp] at h
      simp only [Option.any_some, Bool.and_eq_true, beq_iff_eq] at h
      exact ⟨pg, rfl, h.1, h.2⟩

/-- The pages of all other functions give the type of the prototype. -/
theorem manual_result_partial (p : Proto) (hp : p ∈ header) (hb : p.fn.base ≠ "precision") :
    ∃ pg, page p.fn = some pg ∧ pg.resultType = some (cText p.ret) := by
  have h := List.all_eq_true.mp results_right p hp
  simp only [Bool.or_eq_true, beq_iff_eq, hb, false_or, rightResult] at h
  cases hpg : page p.fn with
  | none => rw [hpg] at h; cases h
  | some pg => rw [hpg] at h; exact ⟨pg, rfl, h⟩

example : ∃ p ∈ header, p.fn.base ≠ "precision" := by
  have h : (header.any fun p => p.fn.base != "precision") = true := by decide +kernel
  simpa using h

end Takum.Man
