import Verif.Lemmas.Defined
import Verif.Model.Kinds

/-!
# C50: no undefined behaviour

All shifts in range, no signed overflow, no table access out of bounds, no conversion of a float to an
integer out of range.
-/

namespace Takum
open Spec

/-- The computation has a result, that is, no undefined behaviour. -/
def Defined {α : Type} (c : C α) : Prop := ∃ x, c = .ok x

/-- C50.  Whatever the math library `L` computes, the following are defined for all arguments: the
conversions from floats, to floats, between the widths and between logarithmic and linear takums, the
precision, the sign, the inversion, the four operations, the square root, integer powers and roots. -/
theorem no_undefined_behaviour (L : Libm) :
    (∀ A w f, Defined (logFrom L A w f) ∧ Defined (linFrom A w f)) ∧
    (∀ A w t, Defined (logTo L A w t) ∧ Defined (linTo A w t)) ∧
    (∀ a b : W, a.n < b.n → ∀ t, Defined (expand a b t)) ∧
    (∀ a b : W, b.n < a.n → ∀ t, Defined (reduce a b t)) ∧
    (∀ a b t, Defined (linFromLog L a b t) ∧ Defined (logFromLin L a b t)) ∧
    (∀ w t, Defined (precision w t) ∧ Defined (signC w t) ∧ Defined (inversionC w t) ∧ Defined (linInversion w t)) ∧
    (∀ w a b, Defined (addition L w a b) ∧ Defined (linAddition w a b)) ∧
    (∀ w a b, Defined (subtraction L w a b) ∧ Defined (linSubtraction w a b)) ∧
    (∀ w a b, Defined (multiplication w a b) ∧ Defined (linMultiplication w a b)) ∧
    (∀ w a b, Defined (division w a b) ∧ Defined (linDivision w a b)) ∧
    (∀ w t, Defined (squareRoot w t) ∧ Defined (linSquareRoot w t)) ∧
    (∀ w t n, Defined (integerPower L w t n) ∧ Defined (linIntegerPower L w t n)) ∧
    (∀ w t n, Defined (root w t n) ∧ Defined (linRoot L w t n)) := by
  have hbin : ∀ fn fix w a b, Defined (binaryLin fn fix w a b) := by
    intro fn fix w a b
    obtain ⟨x, hx⟩ := linToAll_ok w.src w a
    obtain ⟨y, hy⟩ := linToAll_ok w.src w b
    unfold Defined
    rw [binaryLin_eq hx hy]; exact linFrom_ok _ _ _
  have hun : ∀ fn fix w t, Defined (unaryLin fn fix w t) := by
    intro fn fix w t
    obtain ⟨x, hx⟩ := linToAll_ok w.src w t
    unfold Defined
    rw [unaryLin_eq hx]; exact linFrom_ok _ _ _
  have hbl : ∀ fn fix w a b, Defined (binaryLog L fn fix w a b) := by
    intro fn fix w a b
    obtain ⟨x, hx⟩ := logTo_ok L .ext w a
    obtain ⟨y, hy⟩ := logTo_ok L .ext w b
    unfold Defined
    rw [binaryLog_eq hx hy]; exact logFrom_ok _ _ _ _
  refine ⟨fun A w f => ⟨logFrom_ok L A w f, linFrom_ok A w f⟩, fun A w t => ⟨logTo_ok L A w t, linToAll_ok A w t⟩,
    fun a b h t => ?_, fun a b h t => reduce_ok h t, fun a b t => ⟨?_, ?_⟩,
    fun w t => ⟨⟨_, precision_spec w t⟩, ⟨_, signC_eq w t⟩, ⟨_, inversionC_eq w t⟩, hun _ _ _ _⟩,
    fun w a b => ⟨hbl _ _ _ _ _, hbin _ _ _ _ _⟩, fun w a b => ⟨hbl _ _ _ _ _, hbin _ _ _ _ _⟩,
    fun w a b => ⟨?_, hbin _ _ _ _ _⟩, fun w a b => ⟨?_, hbin _ _ _ _ _⟩, fun w t => ⟨?_, hun _ _ _ _⟩,
    fun w t n => ⟨?_, ?_⟩, fun w t n => ⟨?_, ?_⟩⟩
  · obtain ⟨v, e, -⟩ := expand_spec h t; exact ⟨v, e⟩
  · unfold linFromLog Defined
    split
    · obtain ⟨x, e⟩ := logTo_ok L .ext a t
      rw [show toExtended L a t = .ok x from e]; exact linFrom_ok .ext b x
    · obtain ⟨x, e⟩ := logTo_ok L .f64 a t
      rw [show toFloat64 L a t = .ok x from e]; exact linFrom_ok .f64 b x
  · unfold logFromLin Defined
    split
    · obtain ⟨x, e⟩ := linToAll_ok .ext a t
      rw [show linToExtended a t = .ok x from e]; exact logFrom_ok L .ext b x
    · obtain ⟨x, e⟩ := linToAll_ok .f64 a t
      rw [show linToFloat64 a t = .ok x from e]; exact logFrom_ok L .f64 b x
  · obtain ⟨x, hx⟩ := toL_ok w a
    obtain ⟨y, hy⟩ := toL_ok w b
    unfold multiplication Defined
    rw [hx, hy]; exact fromSAndL_ok _ _ _
  · obtain ⟨x, hx⟩ := toL_ok w a
    obtain ⟨y, hy⟩ := toL_ok w b
    unfold division Defined
    rw [hx, hy]; exact fromSAndL_ok _ _ _
  · obtain ⟨x, hx⟩ := toL_ok w t
    unfold squareRoot Defined
    rw [hx]
    split
    · exact ⟨_, rfl⟩
    · exact fromSAndL_ok _ _ _
  · have h : ∀ w t, Defined (integerPowerL w t n) := by
      intro w t
      obtain ⟨x, hx⟩ := toL_ok w t
      unfold integerPowerL Defined
      rw [hx]
      split
      · exact ⟨_, rfl⟩
      · exact fromSAndL_ok _ _ _
    cases w
    · exact h .w8 t
    · exact h .w16 t
    · exact h .w32 t
    · obtain ⟨x, hx⟩ := logTo_ok L .ext .w64 t
      show Defined (integerPower64 L t n)
      unfold integerPower64 Defined
      rw [show toExtended L .w64 t = .ok x from hx]
      split
      · exact ⟨_, rfl⟩
      · exact logFrom_ok L .ext .w64 _
  · obtain ⟨x, hx⟩ := linToAll_ok .ext w t
    unfold linIntegerPower Defined
    rw [show linToExtended w t = .ok x from hx]
    split
    · exact ⟨_, rfl⟩
    · exact linFrom_ok .ext w _
  · obtain ⟨x, hx⟩ := toL_ok w t
    unfold root Defined
    rw [hx]
    split
    · exact ⟨_, rfl⟩
    · exact fromSAndL_ok _ _ _
  · obtain ⟨x, hx⟩ := linToAll_ok .ext w t
    unfold linRoot Defined
    rw [show linToExtended w t = .ok x from hx]
    split
    · exact ⟨_, rfl⟩
    · exact linFrom_ok .ext w _

/-- The same for the elementary functions of both families. -/
theorem no_undefined_behaviour_elementary (L : Libm) (k : Kind) (w : W) :
    (∀ u t, Defined (UFun.call L u k w t)) ∧ ∀ u a b, Defined (BFun.call L u k w a b) := by
  cases k
  · refine ⟨fun u t => ?_, fun u a b => ?_⟩
    · obtain ⟨x, hx⟩ := logTo_ok L .ext w t
      show Defined (unaryLog L _ _ w t)
      unfold Defined
      rw [unaryLog_eq hx]; exact logFrom_ok _ _ _ _
    · obtain ⟨x, hx⟩ := logTo_ok L .ext w a
      obtain ⟨y, hy⟩ := logTo_ok L .ext w b
      show Defined (binaryLog L _ _ w a b)
      unfold Defined
      rw [binaryLog_eq hx hy]; exact logFrom_ok _ _ _ _
  · refine ⟨fun u t => ?_, fun u a b => ?_⟩
    · obtain ⟨x, hx⟩ := linToAll_ok w.src w t
      show Defined (unaryLin _ _ w t)
      unfold Defined
      rw [unaryLin_eq hx]; exact linFrom_ok _ _ _
    · obtain ⟨x, hx⟩ := linToAll_ok w.src w a
      obtain ⟨y, hy⟩ := linToAll_ok w.src w b
      show Defined (binaryLin _ _ w a b)
      unfold Defined
      rw [binaryLin_eq hx hy]; exact linFrom_ok _ _ _

/-- `Defined` is not always true: the absolute value of the 64-bit NaR overflows. -/
example : ¬ Defined (absolute .w64 (nar 64)) := by
  rintro ⟨x, h⟩
  have : absolute .w64 (nar 64) = .error .overflow := by decide +kernel
  rw [this] at h; cases h

/-- The hypotheses on the widths can be met. -/
example : W.w8.n < W.w64.n ∧ Defined (expand .w8 .w64 0x81#8) ∧ Defined (reduce .w64 .w8 0x7fffffffffffffff#64) :=
  ⟨by decide, ⟨0x8100000000000000#64, by decide⟩, ⟨0x7f#8, by decide +kernel⟩⟩

end Takum
