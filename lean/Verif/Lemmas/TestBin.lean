import Verif.Props.TestElem
import Verif.Lemmas.BinAcc

/-! # The `double` and the `long double` version of a function of two arguments -/

namespace Takum.Test
open Takum Spec

/-- What is to be shown. -/
def Pair2 (L : Libm) (u : BFun) (w : W) (r s : Fl) : Prop :=
  ∃ p q : T w, linFrom .f64 w (u.fix r s (u.ev L b64 r s)) = .ok p ∧ linFrom .ext w (u.fix r s (u.ev L x80 r s)) = .ok q ∧
    |p.toInt - q.toInt| ≤ 1

theorem pair2_good {L : Libm} {u : BFun} {w : W} (hw : w ≠ .w64) {r s : Fl} {p q : ℚ} (h1 : Good2 L u b64 r s p q)
    (h2 : Good2 L u x80 r s p q) : Pair2 L u w r s := by
  rcases h1 with ⟨a1, a2⟩ | ⟨a1, a2⟩ <;> rcases h2 with ⟨b1, b2⟩ | ⟨b1, b2⟩
  · exact bad_pair w a2 b2
  · exact absurd a1 b1
  · exact absurd b1 a1
  · exact res_pair hw (by show (8 : ℝ) / 2 ^ 53 ≤ _; norm_num) (by show (8 : ℝ) / 2 ^ 64 ≤ _; norm_num) a2 b2

theorem good2_fmt {L : Libm} (hL : L.Conforming) (hA : L.Approximates) (u : BFun) {F : Fmt} (hF : F = b64 ∨ F = x80) {w : W}
    {r s : Fl} {p q : ℚ} {x y : ℝ} (a : Arg F w r p x) (b : Arg F w s q y) (z : p = 0 → r = .zero false) (z' : q = 0 → s = .zero false) :
    Good2 L u F r s p q := by
  cases u
  · exact good_arctan2 hA hF a b z z'
  · exact good_arctan2_over_pi hA hF a b z z'
  · exact good_hypotenuse hA hF a b
  · exact good_power hL hA hF a b

/-- A NaN argument: the result is NaN, or 1 for `NaN^0` and `1^NaN`. -/
theorem ev_nan2 {L : Libm} (hL : L.Conforming) (u : BFun) {r s : Fl} (hr : r.isinf = false) (hs : s.isinf = false)
    (h : r = .nan ∨ s = .nan) : (∀ F, u.ev L F r s = .nan) ∨ (u = .power ∧ ∀ F, u.ev L F r s = .num 1) := by
  have n := hL.nans
  cases u
  · left; intro F
    rcases h with rfl | rfl
    · exact n.atan2_left _ _
    · exact n.atan2_right _ _
  · left; intro F
    show Fl.cast F (Fl.div x80 (L.atan2 x80 r s) PI) = _
    have : L.atan2 x80 r s = .nan := by
      rcases h with rfl | rfl
      · exact n.atan2_left _ _
      · exact n.atan2_right _ _
    rw [this]; rfl
  · left; intro F
    rcases h with rfl | rfl
    · exact n.hypot_left _ _ hs
    · exact n.hypot_right _ _ hr
  · show (∀ F, L.pow F r s = .nan) ∨ (_ ∧ ∀ F, L.pow F r s = .num 1)
    by_cases h0 : ∃ z, s = .zero z
    · obtain ⟨z, rfl⟩ := h0
      exact .inr ⟨rfl, fun F => hL.specials.exp_zero F _ _⟩
    by_cases h1 : r = .num 1
    · subst h1
      exact .inr ⟨rfl, fun F => hL.specials.base_one F _⟩
    left; intro F
    rcases h with rfl | rfl
    · exact n.pow_left _ _ fun z e => h0 ⟨z, e⟩
    · exact n.pow_right _ _ h1

theorem fix2_nan (u : BFun) (r s : Fl) : u.fix r s .nan = .nan := by cases u <;> rfl
theorem fix2_num (u : BFun) (r s : Fl) {q : ℚ} (hq : q ≠ 0) : u.fix r s (.num q) = .num q := by
  cases u
  · rfl
  · rfl
  · rfl
  · exact fixPower_is (b := s) (Fl.Is.num hq) hq

theorem pair2_nan {L : Libm} (hL : L.Conforming) (u : BFun) {w : W} (hw : w ≠ .w64) {r s : Fl} (hr : r.isinf = false)
    (hs : s.isinf = false) (h : r = .nan ∨ s = .nan) : Pair2 L u w r s := by
  rcases ev_nan2 hL u hr hs h with h | ⟨rfl, h⟩
  · refine bad_pair w ?_ ?_ <;> rw [h, fix2_nan] <;> rfl
  · unfold Pair2
    rw [h, h, fix2_num _ _ _ one_ne_zero]
    exact close_pair hw (by simp) (by simp) (Fl.Is.num one_ne_zero) (one_in (Or.inr (Or.inl rfl)))
      (Fl.Is.num one_ne_zero) (one_in (Or.inr (Or.inr rfl))) (by norm_num)

/-- The converted argument: NaN for NaR, else a number. -/
theorem arg_cases {L : Libm} (hL : L.Conforming) {k : Kind} {w : W} {t : T w} {a : Fl} (hk : kTo L k w t = .ok a) :
    (t = nar w.n ∧ a = .nan) ∨ ∃ v x, Arg' k w a v x ∧ (v = 0 ↔ t = 0#w.n) := by
  cases hx : value k t with
  | none =>
    rw [value_none] at hx
    subst hx
    have : toExt L k w (nar w.n) = .ok a := by
      cases k
      · exact hk
      · exact lin_ext hk
    rw [toExt_nar hL.powers k w] at this
    exact .inl ⟨rfl, (Except.ok.inj this).symm⟩
  | some x =>
    obtain ⟨r, v, e, h⟩ := kTo_acc hL k w hx
    rw [hk] at e
    obtain rfl := Except.ok.inj e
    refine .inr ⟨v, x, h, h.zero.symm.trans ?_⟩
    have z := value_zero (w := w) k
    have o1 := value_order k hx z
    have o2 := value_order k z hx
    rw [← BitVec.toInt_inj, le_antisymm_iff, le_antisymm_iff, o1, o2]

theorem toExt_kTo {L : Libm} {k : Kind} {w : W} {t : T w} {a : Fl} (ha : toExt L k w t = .ok a) : kTo L k w t = .ok a := by
  cases k
  · exact ha
  · obtain ⟨x, ex, -⟩ := lin_arg w t
    have hxa := lin_ext (L := L) ex
    rw [ha] at hxa
    obtain rfl := Except.ok.inj hxa
    exact ex

end Takum.Test
