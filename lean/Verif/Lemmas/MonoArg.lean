import Verif.Lemmas.MonoCall
import Verif.Props.LinFloat

/-!
# Arguments of the monotone functions
-/

namespace Takum
open Spec

theorem exactFl_is (v : ℚ) : (exactFl (some v)).Is v := by
  unfold exactFl
  simp only
  split_ifs with h
  · subst h; exact Fl.Is.zero _
  · exact Fl.Is.num h

theorem value_ne {k : Kind} {w : W} {t : T w} {p : ℝ} (h : value k t = some p) : t ≠ nar w.n := by
  rw [Ne, ← value_none (k := k), h]; simp

theorem fl_in_of_is {F : Fmt} {r : Fl} {v : ℚ} (h : r.Is v) (i : F.In v) : r.In F := by
  rcases h.cases with ⟨h0, e⟩ | ⟨h0, s, e⟩
  · subst e; exact ⟨h0, i⟩
  · subst e; trivial

theorem arg_pos {L : Libm} {k : Kind} {w : W} {t : T w} {x : ℝ} (h0 : 0 < x) (r : Fl) (v : ℚ) (_ : kTo L k w t = .ok r) (h : Arg' k w r v x) :
    SArg false (kF k w) r := by
  have v0 : v ≠ 0 := fun e => h0.ne' (h.zero.mpr e)
  have vn : ¬ v < 0 := fun e => absurd (h.neg.mpr e) (not_lt.mpr h0.le)
  have e : |v| = v := abs_of_nonneg (not_lt.mp vn)
  refine ⟨fl_in_of_is h.is h.isIn, v, h.is, ?_, ?_⟩
  · have := h.ge v0; rwa [e] at this
  · have := h.le; rwa [e] at this

theorem arg_neg {L : Libm} {k : Kind} {w : W} {t : T w} {x : ℝ} (h0 : x < 0) (r : Fl) (v : ℚ) (_ : kTo L k w t = .ok r) (h : Arg' k w r v x) :
    SArg true (kF k w) r := by
  have v0 : v ≠ 0 := fun e => h0.ne (h.zero.mpr e)
  have e : |v| = -v := abs_of_neg (h.neg.mp h0)
  refine ⟨fl_in_of_is h.is h.isIn, v, h.is, ?_, ?_⟩
  · have := h.ge v0; rwa [e] at this
  · have := h.le; rwa [e] at this

end Takum
