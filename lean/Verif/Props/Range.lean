import Verif.Lemmas.Range
import Verif.Lemmas.IdealInv
import Verif.Props.Accuracy

/-!
# C107: the results of the elementary functions are in the range of the function

Without any tolerance, for all types and all arguments.
-/

namespace Takum
open Spec

/-- Functions with values between -1 and 1. -/
def InUnit : UFun → Bool
  | .sin | .cos | .sin_pi_times | .cos_pi_times | .tanh | .sech => true
  | _ => false

/-- Functions with values of magnitude at least 1. -/
def OutUnit : UFun → Bool
  | .csc | .sec | .csc_pi_times | .sec_pi_times | .cosh | .coth => true
  | _ => false

theorem pow_zero_one : (2 : ℚ) ^ (0 : ℕ) = 1 := by norm_num

theorem sinpi_within {L : Libm} (hL : L.Conforming) {r : Fl} {v : ℚ} (hr : r.Is v) (h : |v| ≤ (2 : ℚ) ^ (300 : ℤ)) :
    (sinpil L r).Within x80 1 ∧ (cospil L r).Within x80 1 ∧ (cscPiTimesl L r).Large x80 ∧ (secPiTimesl L r).Large x80 := by
  obtain ⟨a, b, c⟩ := num_within (F := x80) (Or.inr rfl)
  obtain ⟨d, e, f⟩ := num_large (F := x80) (Or.inr rfl)
  obtain ⟨z, hz, iz⟩ := pi_mul_in hr h
  have hs := hL.circular.sin x80 (Or.inr rfl) _ z hz iz
  have hc := hL.circular.cos x80 (Or.inr rfl) _ z hz iz
  refine ⟨?_, ?_, ?_, ?_⟩
  · unfold sinpil; dsimp only; split_ifs <;> first | exact c _ | assumption
  · unfold cospil; dsimp only; split_ifs <;> first | exact c _ | assumption
  · unfold cscPiTimesl; dsimp only; split_ifs <;> first | assumption | exact inv_large (Or.inr rfl) hs
  · unfold secPiTimesl; dsimp only; split_ifs <;> first | assumption | exact inv_large (Or.inr rfl) hc

/-- The float before the conversion. -/
theorem inUnit_float {L : Libm} (hL : L.Conforming) {u : UFun} (hu : InUnit u = true) {F : Fmt} (hF : F = b64 ∨ F = x80) {r : Fl} {v : ℚ}
    (hr : r.Is v) (hi : F.In v) (hi' : x80.In v) (hl : |v| ≤ (2 : ℚ) ^ (300 : ℤ)) (hg : v ≠ 0 → (2 : ℚ) ^ (-300 : ℤ) ≤ |v|) :
    (u.fix r (u.ev L F r)).Within F 1 := by
  have W := sinpi_within hL hr hl
  cases u <;> simp only [InUnit, Bool.false_eq_true] at hu
  case sin => rcases hF with rfl | rfl <;> exact hL.circular.sin _ (by simp) r v hr hi
  case cos => rcases hF with rfl | rfl <;> exact hL.circular.cos _ (by simp) r v hr hi
  case sin_pi_times =>
    have := ev_within (L := L) (u := .sin_pi_times) rfl hF (k := 0) (by omega) (by rw [pow_zero_one]; exact W.1)
    rwa [pow_zero_one] at this
  case cos_pi_times =>
    have := ev_within (L := L) (u := .cos_pi_times) rfl hF (k := 0) (by omega) (by rw [pow_zero_one]; exact W.2.1)
    rwa [pow_zero_one] at this
  case tanh =>
    have key : ∀ F, F = b64 ∨ F = x80 → F.In v → (L.tanh F r).Within F 1 := by
      intro F hF hi
      rcases hr.cases with ⟨h0, rfl⟩ | ⟨rfl, s, rfl⟩
      · obtain ⟨z, e, i, -, b, -⟩ := hL.hyperbolics.tanh F hF v (hg h0) hi
        rw [e]
        by_cases hz : z = 0
        · exfalso
          obtain ⟨z', e', -, b', -⟩ := hL.hyperbolics.tanh F hF v (hg h0) hi
          rw [e] at e'
          obtain rfl := Fl.num.inj e'
          rw [hz, abs_zero] at b'
          have : (0 : ℚ) < min |v| 1 / 4 := div_pos (lt_min (abs_pos.mpr h0) one_pos) (by norm_num)
          linarith
        · exact ⟨z, Fl.Is.num hz, i, b⟩
      · rw [hL.hyperbolics.tanh_zero]; exact (num_within hF).2.2 s
    rcases hF with rfl | rfl
    · exact key _ (Or.inl rfl) hi
    · exact key _ (Or.inr rfl) hi
  case sech =>
    have key : ∀ F, F = b64 ∨ F = x80 → F.In v → (fixSech r (Fl.div F (.num 1) (L.cosh F r))).Within F 1 := by
      intro F hF hi
      obtain ⟨m, em, pm, im⟩ := dbl_min hF
      have m1 : |m| ≤ 1 := by
        have : m = 1 / 2 ^ 1022 := (Fl.num.inj em).symm
        rw [this]; decide +kernel
      have dm : DBL_MIN.Within F 1 := ⟨m, by rw [em]; exact Fl.Is.num pm.ne', im, m1⟩
      rcases hL.hyperbolics.cosh F hF r v hr hi with h | ⟨z, h, i, h1⟩
      · rw [h]; exact dm
      · have z0 : z ≠ 0 := by rintro rfl; linarith
        have q1 : |1 / z| ≤ 1 := by
          rw [abs_div, abs_one, div_le_one (abs_pos.mpr z0)]; exact h1.trans (le_abs_self z)
        obtain ⟨a, b⟩ := rq_pow hF (k := 0) (by omega) (by rw [pow_zero_one]; exact q1)
        have := (Fl.Is.num (one_ne_zero (α := ℚ))).div (Fl.Is.num z0) z0 b.2
        rw [h]
        unfold fixSech
        split_ifs
        · exact dm
        · exact ⟨_, this, b, by rwa [pow_zero_one] at a⟩
    rcases hF with rfl | rfl
    · exact key _ (Or.inl rfl) hi
    · exact key _ (Or.inr rfl) hi

theorem outUnit_float {L : Libm} (hL : L.Conforming) {u : UFun} (hu : OutUnit u = true) {F : Fmt} (hF : F = b64 ∨ F = x80) {r : Fl} {v : ℚ}
    (hr : r.Is v) (hi : F.In v) (hi' : x80.In v) (hl : |v| ≤ (2 : ℚ) ^ (300 : ℤ)) (hg : v ≠ 0 → (2 : ℚ) ^ (-300 : ℤ) ≤ |v|) :
    (u.fix r (u.ev L F r)).Large F := by
  have W := sinpi_within hL hr hl
  have X : x80 = b64 ∨ x80 = x80 := Or.inr rfl
  cases u <;> simp only [OutUnit, Bool.false_eq_true] at hu
  case csc => exact ev_large (L := L) (u := .csc) rfl hF (inv_large X (hL.circular.sin _ X r v hr hi'))
  case sec => exact ev_large (L := L) (u := .sec) rfl hF (inv_large X (hL.circular.cos _ X r v hr hi'))
  case csc_pi_times => exact ev_large (L := L) (u := .csc_pi_times) rfl hF W.2.2.1
  case sec_pi_times => exact ev_large (L := L) (u := .sec_pi_times) rfl hF W.2.2.2
  case coth =>
    have := inUnit_float hL (u := .tanh) rfl X hr hi' hi' hl hg
    exact ev_large (L := L) (u := .coth) rfl hF (inv_large X this)
  case cosh =>
    have key : ∀ F, F = b64 ∨ F = x80 → F.In v → (fixInf r (L.cosh F r)).Large F := by
      intro F hF hi
      rcases hL.hyperbolics.cosh F hF r v hr hi with h | ⟨z, h, i, h1⟩
      · obtain ⟨m, em, pm, im⟩ := dbl_max hF
        rw [h]
        refine Or.inr ⟨m, ?_, im, ?_⟩
        · show DBL_MAX.Is m
          rw [em]; exact Fl.Is.num pm.ne'
        · have : m = (2 - 1 / 2 ^ 52) * 2 ^ 1023 := (Fl.num.inj em).symm
          rw [this]; decide +kernel
      · rw [h]
        exact Or.inr ⟨z, Fl.Is.num (by rintro rfl; linarith), i, h1.trans (le_abs_self z)⟩
    rcases hF with rfl | rfl
    · exact key _ (Or.inl rfl) hi
    · exact key _ (Or.inr rfl) hi

theorem kF_x80 {k : Kind} {w : W} {v : ℚ} (h : (kF k w).In v) : x80.In v := by
  rcases kF_std k w with e | e
  · rw [e] at h; exact Fmt.b64_x80 h
  · rwa [e] at h

/-- C107: `sin`, `cos`, `sin_pi_times`, `cos_pi_times`, `tanh` and `sech` of a number are between -1 and 1. -/
theorem range_inside {L : Libm} (hL : L.Conforming) (u : UFun) (hu : InUnit u = true) (k : Kind) (w : W) (t : T w) (x : ℝ) (hx : value k t = some x) :
    ∃ (s : T w) (y : ℝ), u.call L k w t = .ok s ∧ value k s = some y ∧ |y| ≤ 1 := by
  obtain ⟨r, v, e, a⟩ := kTo_acc hL k w hx
  obtain ⟨z, iz, nz, bz⟩ := inUnit_float hL hu (kF_std k w) a.is a.isIn (kF_x80 a.isIn) a.le a.ge
  obtain ⟨s, y, e', hy, h1, -⟩ := kFrom_unit hL k (w := w) iz nz
  exact ⟨s, y, (call_eq e).trans e', hy, h1 bz⟩

/-- C107: `csc`, `sec`, `csc_pi_times`, `sec_pi_times`, `cosh` and `coth` of a number are NaR or have magnitude at least 1. -/
theorem range_outside {L : Libm} (hL : L.Conforming) (u : UFun) (hu : OutUnit u = true) (k : Kind) (w : W) (t : T w) (x : ℝ) (hx : value k t = some x) :
    ∃ s : T w, u.call L k w t = .ok s ∧ (s = nar w.n ∨ ∃ y, value k s = some y ∧ 1 ≤ |y|) := by
  obtain ⟨r, v, e, a⟩ := kTo_acc hL k w hx
  rcases outUnit_float hL hu (kF_std k w) a.is a.isIn (kF_x80 a.isIn) a.le a.ge with h | ⟨z, iz, nz, bz⟩
  · exact ⟨_, (call_eq e).trans (kFrom_bad h), Or.inl rfl⟩
  · obtain ⟨s, y, e', hy, -, h1, -⟩ := kFrom_unit hL k (w := w) iz nz
    exact ⟨s, (call_eq e).trans e', Or.inr ⟨y, hy, h1 bz⟩⟩

theorem cosh_float {L : Libm} (hL : L.Conforming) {F : Fmt} (hF : F = b64 ∨ F = x80) {r : Fl} {v : ℚ} (hr : r.Is v) (hi : F.In v) :
    ∃ z, (UFun.cosh.fix r (UFun.cosh.ev L F r)).Is z ∧ F.In z ∧ 0 < z := by
  have key : ∀ F, F = b64 ∨ F = x80 → F.In v → ∃ z, (fixInf r (L.cosh F r)).Is z ∧ F.In z ∧ 0 < z := by
    intro F hF hi
    rcases hL.hyperbolics.cosh F hF r v hr hi with h | ⟨z, h, i, h1⟩
    · obtain ⟨m, em, pm, im⟩ := dbl_max hF
      rw [h]
      exact ⟨m, by show DBL_MAX.Is m; rw [em]; exact Fl.Is.num pm.ne', im, pm⟩
    · rw [h]
      exact ⟨z, Fl.Is.num (by rintro rfl; linarith), i, by linarith⟩
  rcases hF with rfl | rfl
  · exact key _ (Or.inl rfl) hi
  · exact key _ (Or.inr rfl) hi

/-- C107: `cosh` is at least 1. -/
theorem range_cosh {L : Libm} (hL : L.Conforming) (k : Kind) (w : W) (t : T w) (x : ℝ) (hx : value k t = some x) :
    ∃ (s : T w) (y : ℝ), UFun.cosh.call L k w t = .ok s ∧ value k s = some y ∧ 1 ≤ y := by
  obtain ⟨r, v, e, a⟩ := kTo_acc hL k w hx
  obtain ⟨z, iz, nz, pz⟩ := cosh_float hL (kF_std k w) a.is a.isIn
  obtain ⟨s, y, e', hy, -, h1, h2, -⟩ := kFrom_unit hL k (w := w) iz nz
  refine ⟨s, y, (call_eq e).trans e', hy, ?_⟩
  have py := h2.mp pz
  rcases outUnit_float hL (u := .cosh) rfl (kF_std k w) a.is a.isIn (kF_x80 a.isIn) a.le a.ge with h | ⟨z', iz', -, bz⟩
  · rw [iz.isfinite] at h; cases h
  · rw [iz'.unique iz] at bz
    have := h1 bz
    rwa [abs_of_pos py] at this

/-- Infinite, or a number of the type that is at least -1. -/
def Fl.Up (F : Fmt) (x : Fl) : Prop := x = .inf false ∨ ∃ z, Fl.Is x z ∧ F.In z ∧ -1 ≤ z

theorem round_up {F : Fmt} (hF : F = b64 ∨ F = x80) (s : Bool) {q : ℚ} (h : -1 ≤ q) : (Fl.round F s q).Up F := by
  have hp := (std_facts hF).1
  have hr : -1 ≤ F.rq q := by
    have := F.rq_mono (by omega) h
    rwa [F.rq_of_rep (one_rep hF).neg] at this
  by_cases hb : |F.rq q| < (2 : ℚ) ^ F.emax
  · exact Or.inr ⟨_, Fl.Is.round s hb, ⟨F.rq_rep (by omega) q, hb⟩, hr⟩
  · left
    have hE : (1 : ℚ) < 2 ^ F.emax := by rcases hF with rfl | rfl <;> decide +kernel
    have q0 : ¬q < 0 := by
      intro hq
      apply hb
      rw [abs_lt]
      have n0 : F.rq q ≤ 0 := by
        have := F.rq_mono (by omega) hq.le
        rwa [F.rq_of_rep (Fmt.Rep.zero F)] at this
      exact ⟨by linarith, by linarith⟩
    have h0 : q ≠ 0 := by
      rintro rfl
      apply hb
      rw [F.rq_of_rep (Fmt.Rep.zero F), abs_zero]; positivity
    unfold Fl.round
    rw [if_neg h0, if_pos (not_lt.mp hb)]
    simp [q0]

theorem minus_one_up {f : Fl} (h1 : f ≠ .nan) (h2 : f.sgn = false) (h3 : f ≠ .num 0) : (Fl.sub x80 f (.num 1)).Up x80 := by
  have o : Fl.Is (.num 1) 1 := Fl.Is.num one_ne_zero
  have key : ∀ q : ℚ, f.Is q → 0 ≤ q → (Fl.sub x80 f (.num 1)).Up x80 := by
    intro q hq h0
    unfold Fl.sub
    rw [Fl.add_eq hq o.neg]
    exact round_up (Or.inr rfl) _ (by linarith)
  cases f with
  | nan => exact absurd rfl h1
  | inf s => cases s
             · left; rfl
             · cases h2
  | zero s => exact key 0 (Fl.Is.zero s) le_rfl
  | num q =>
    have hq : q ≠ 0 := by rintro rfl; exact h3 rfl
    exact key q (Fl.Is.num hq) (by simpa [Fl.sgn] using h2)

theorem cast_up {F : Fmt} (hF : F = b64 ∨ F = x80) {x : Fl} (h : x.Up x80) : (Fl.cast F x).Up F := by
  rcases h with rfl | ⟨z, h1, -, h3⟩
  · left; rfl
  · obtain ⟨s, e⟩ := cast_round (F := F) h1
    rw [e]; exact round_up hF s h3

theorem minus_one_float {L : Libm} (hL : L.Conforming) {u : UFun} (hu : u = .two_raised_minus_1 ∨ u = .ten_raised_minus_1)
    {F : Fmt} (hF : F = b64 ∨ F = x80) {r : Fl} {v : ℚ} (hr : r.Is v) :
    ∃ z, (u.fix r (u.ev L F r)).Is z ∧ F.In z ∧ -1 ≤ z := by
  have r0 : r ≠ .num 0 := by rintro rfl; rcases hr.cases with ⟨h, e⟩ | ⟨-, s, e⟩ <;> simp_all
  have nz : ∀ {f : Fl}, f.In x80 → f ≠ .num 0 := by rintro f h rfl; exact h.1 rfl
  have up : (u.evl L r).Up x80 := by
    rcases hu with rfl | rfl
    · obtain ⟨a, b, c⟩ := hL.exps.exp2 x80 (Or.inr rfl) r hr.isfinite r0
      exact minus_one_up a b (nz c)
    · obtain ⟨a, b, c⟩ := hL.exps.pow10 r hr.isfinite r0
      exact minus_one_up a b (nz c)
  have ev : (u.ev L F r).Up F := by
    have hc : CastFun u = true := by rcases hu with rfl | rfl <;> rfl
    rcases hF with rfl | rfl
    · rw [ev_b64, evd_cast L hc]; exact cast_up (Or.inl rfl) up
    · rw [ev_x80]; exact up
  have fx : u.fix = fixInf := by rcases hu with rfl | rfl <;> rfl
  rw [fx]
  rcases ev with h | ⟨z, h1, h2, h3⟩
  · obtain ⟨m, em, pm, im⟩ := dbl_max hF
    rw [h]
    exact ⟨m, by show DBL_MAX.Is m; rw [em]; exact Fl.Is.num pm.ne', im, by linarith⟩
  · refine ⟨z, ?_, h2, h3⟩
    unfold fixInf
    rw [h1.isinf]
    simpa using h1

/-- C107: `2_raised_minus_1` and `10_raised_minus_1` are at least -1. -/
theorem range_minus_one {L : Libm} (hL : L.Conforming) (u : UFun) (hu : u = .two_raised_minus_1 ∨ u = .ten_raised_minus_1) (k : Kind) (w : W) (t : T w)
    (x : ℝ) (hx : value k t = some x) :
    ∃ (s : T w) (y : ℝ), u.call L k w t = .ok s ∧ value k s = some y ∧ -1 ≤ y := by
  obtain ⟨r, v, e, a⟩ := kTo_acc hL k w hx
  obtain ⟨z, iz, nz, pz⟩ := minus_one_float hL hu (kF_std k w) a.is
  obtain ⟨s, y, e', hy, h1, -, h2, h3⟩ := kFrom_unit hL k (w := w) iz nz
  refine ⟨s, y, (call_eq e).trans e', hy, ?_⟩
  by_cases h0 : z < 0
  · exact (abs_le.mp (h1 (abs_le.mpr ⟨pz, by linarith⟩))).1
  · have : ¬y < 0 := fun h => h0 (h3.mpr h)
    linarith

/-- A library that meets the hypothesis, the functions of the theorems, and arguments. -/
example : InUnit .sech = true ∧ OutUnit .sec_pi_times = true ∧ ∃ x, value .lin (0x8001#16 : T .w16) = some x :=
  ⟨rfl, rfl, _, by show Option.map _ (linVal (0x8001#16 : T .w16)) = _; rw [linVal_qv (w := .w16) (by decide)]; rfl⟩

example : ideal.Conforming ∧ ∃ x, value .log (0x7fffffff#32 : T .w32) = some x :=
  ⟨ideal_conforming, _, logVal_regular (by decide) (by unfold Regular; decide)⟩

end Takum
