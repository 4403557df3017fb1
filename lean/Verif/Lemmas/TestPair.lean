import Verif.Lemmas.TestElem

/-! # The `double` and the `long double` version of an elementary function -/

namespace Takum.Test
open Takum Spec

/-- A result converted from `long double` to `double`. -/
theorem cast_pair {w : W} (hw : w ≠ .w64) {r : Fl} {q : ℚ} (hr : r.Is q) (hi : x80.In q) (hc : (Fl.cast b64 r).isfinite = true) :
    ∃ u v : T w, linFrom .f64 w (Fl.cast b64 r) = .ok u ∧ linFrom .ext w r = .ok v ∧ |u.toInt - v.toInt| ≤ 1 := by
  have h1 : |b64.rq q| < (2 : ℚ) ^ b64.emax := by
    obtain ⟨s, e⟩ := cast_round (F := b64) hr
    by_contra hh
    rw [e] at hc
    unfold Fl.round at hc
    split_ifs at hc with a b
    · subst a
      rw [b64.rq_of_rep (Fmt.Rep.zero _), abs_zero] at hh
      exact hh (by positivity)
    · simp [Fl.isfinite] at hc
    · exact b (not_lt.mp hh)
  have hs : w.src = .f64 := by cases w <;> first | rfl | exact absurd rfl hw
  have c : (Fl.cast w.src.fmt r).Is (w.src.fmt.rq q) := by rw [hs]; exact hr.cast h1
  have c2 : w.src.fmt.In (w.src.fmt.rq q) := by rw [hs]; exact ⟨b64.rq_rep (by decide) _, h1⟩
  rw [← rq_cast_real] at c c2
  have e : x80.rq (q : ℝ) = q := by rw [rq_cast_real]; exact x80.rq_of_rep hi.1
  obtain ⟨u, v, e1, e2, e3⟩ := rounded_near (w := w) (q : ℝ) c c2 (e.symm ▸ hr) (e.symm ▸ hi)
  rw [hs] at e1
  exact ⟨u, v, e1, e2, e3⟩

theorem bad_pair (w : W) {f g : Fl} (hf : f.isfinite = false) (hg : g.isfinite = false) :
    ∃ u v : T w, linFrom .f64 w f = .ok u ∧ linFrom .ext w g = .ok v ∧ |u.toInt - v.toInt| ≤ 1 :=
  ⟨_, _, lin_bad _ _ hf, lin_bad _ _ hg, by simp⟩

/-- What is to be shown. -/
def Pair (L : Libm) (u : UFun) (w : W) (r : Fl) : Prop :=
  ∃ p q : T w, linFrom .f64 w (u.fix r (u.ev L b64 r)) = .ok p ∧ linFrom .ext w (u.fix r (u.ev L x80 r)) = .ok q ∧
    |p.toInt - q.toInt| ≤ 1

/-- Functions whose error is bounded for the argument itself. -/
theorem pair_good {L : Libm} {u : UFun} {w : W} (hw : w ≠ .w64) {r : Fl} {v : ℚ} (hp : argPert u = 0)
    (hr : ∀ F, resPert F u = 8 / 2 ^ F.prec) (hs : ∀ y, errScale u y = |y|) (h1 : Good L u b64 r v) (h2 : Good L u x80 r v) :
    Pair L u w r := by
  obtain ⟨x, hx, h1⟩ := h1
  obtain ⟨y, hy, h2⟩ := h2
  rw [hp, zero_mul, abs_nonpos_iff, sub_eq_zero] at hx hy
  subst hx hy
  rcases h1 with ⟨a1, a2⟩ | ⟨a1, a2⟩ <;> rcases h2 with ⟨b1, b2⟩ | ⟨b1, b2⟩
  · exact bad_pair w a2 b2
  · exact absurd a1 b1
  · exact absurd b1 a1
  · rw [hr, hs] at a2 b2
    exact res_pair hw (by show (8 : ℝ) / 2 ^ 53 ≤ _; norm_num) (by show (8 : ℝ) / 2 ^ 64 ≤ _; norm_num) a2 b2

/-- Functions that convert the `long double` result and have finitely many poles. -/
theorem pair_cast {L : Libm} (hL : L.Conforming) {u : UFun} (hc : CastFun u = true) (hf : u.fix = noFix) (hu : Covered u = true)
    {w : W} (hw : w ≠ .w64) {r : Fl} {v : ℚ} {x : ℝ} (h1 : Arg b64 w r v x) (h2 : Arg x80 w r v x) : Pair L u w r := by
  obtain ⟨a1, a2⟩ := domain_core hL hu (fun _ => hw) (Or.inl rfl) h1
  obtain ⟨b1, b2⟩ := domain_core hL hu (fun _ => hw) (Or.inr rfl) h2
  by_cases hx : Excluded u v
  · exact bad_pair w (a1 hx) (b1 hx)
  · obtain ⟨p, i, -⟩ := a2 hx
    obtain ⟨q, j, k⟩ := b2 hx
    unfold Pair
    rw [hf] at i j ⊢
    change (u.ev L b64 r).Is p at i
    change (u.ev L x80 r).Is q at j
    show ∃ p q : T w, linFrom .f64 w (u.ev L b64 r) = .ok p ∧ linFrom .ext w (u.ev L x80 r) = .ok q ∧ _
    rw [ev_b64, evd_cast L hc] at i ⊢
    rw [ev_x80] at j ⊢
    exact cast_pair hw j k i.isfinite

theorem pair_near {L : Libm} {u : UFun} (hc : CastFun u = true) (hf : u.fix = noFix) {w : W} (hw : w ≠ .w64) {r : Fl}
    (h : (u.evl L r).isfinite = false ∨ ∃ ε y : ℝ, Near x80 ε y (u.evl L r) ∧ Mod y ∧ ε ≤ 1 / 4) : Pair L u w r := by
  unfold Pair
  rw [hf]
  show ∃ p q : T w, linFrom .f64 w (u.ev L b64 r) = .ok p ∧ linFrom .ext w (u.ev L x80 r) = .ok q ∧ _
  rw [ev_b64, evd_cast L hc, ev_x80]
  rcases h with h | ⟨ε, y, h1, h2, h3⟩
  · exact bad_pair w (cast_bad h) h
  · obtain ⟨z', a', -⟩ := h1.cast h2 h3
    obtain ⟨z, a, b, -⟩ := h1
    exact cast_pair hw a b a'.isfinite

theorem near_one {f : Fl} {c : ℚ} (hf : f.Is c) (hc : c = 0 ∨ c = 1 ∨ c = -1) : ∃ ε y : ℝ, Near x80 ε y f ∧ Mod y ∧ ε ≤ 1 / 4 := by
  have one : x80.In 1 := one_in (F := x80) (by simp)
  have z1 : (2 : ℝ) ^ (-900 : ℤ) ≤ 1 := by have := z_le (show (-900 : ℤ) ≤ 0 by norm_num); simpa using this
  have m : x80.In c ∧ Mod (c : ℝ) := by
    rcases hc with rfl | rfl | rfl
    · exact ⟨⟨Fmt.Rep.zero _, by rw [abs_zero]; positivity⟩, Or.inl (by simp)⟩
    · exact ⟨one, mod_of (fun _ => by push_cast; norm_num [z1]; exact z1) (by push_cast; norm_num; exact le440.2.2)⟩
    · exact ⟨In_neg one, mod_of (fun _ => by push_cast; norm_num [z1]; exact z1) (by push_cast; norm_num; exact le440.2.2)⟩
  exact ⟨0, c, ⟨c, hf, m.1, by simp⟩, m.2, by norm_num⟩

section
variable {L : Libm} (hA : L.Approximates) {w : W} (hw : w ≠ .w64) {r : Fl} {v : ℚ} {x : ℝ} (h : Arg x80 w r v x) (hl : |v| ≤ (2 : ℚ) ^ (258 : ℤ))
include hA hw h hl

theorem pair_tan_pi : Pair L .tan_pi_times w r := by
  refine pair_near rfl rfl hw ?_
  show (tanpil L r).isfinite = false ∨ ∃ ε y : ℝ, Near x80 ε y (tanpil L r) ∧ _
  unfold tanpil
  extract_lets m
  split_ifs with h0 h1
  · exact .inr (near_one (Fl.Is.zero _) (.inl rfl))
  · exact .inl rfl
  · obtain ⟨p, i, t, p0, -⟩ := pi_mul (Or.inr rfl) h (fm_ne_zero h h0) hl
    exact .inr ⟨_, _, (hA.tan x80 (Or.inr rfl) _ p i t.rep).near (mod_tan t), mod_tan t, by norm_num [prec80]⟩

theorem pair_csc_pi : Pair L .csc_pi_times w r := by
  refine pair_near rfl rfl hw ?_
  show (cscPiTimesl L r).isfinite = false ∨ ∃ ε y : ℝ, Near x80 ε y (cscPiTimesl L r) ∧ _
  unfold cscPiTimesl
  extract_lets m
  split_ifs with h0 h1 h2 h3
  · exact .inl rfl
  · exact .inr (near_one (Fl.Is.num one_ne_zero) (.inr (.inl rfl)))
  · exact .inl rfl
  · exact .inr (near_one (Fl.Is.num (by norm_num)) (.inr (.inr rfl)))
  · obtain ⟨p, i, t, p0, -⟩ := pi_mul (Or.inr rfl) h (fm_ne_zero h h0) hl
    have m := mod_sin t
    exact .inr ⟨_, _, ((hA.sin x80 (Or.inr rfl) _ p i t.rep).near m).inv (Or.inr rfl) m (sin_ne t p0) (by norm_num [prec80]),
      m.inv, by norm_num [prec80]⟩

theorem pair_sec_pi : Pair L .sec_pi_times w r := by
  refine pair_near rfl rfl hw ?_
  show (secPiTimesl L r).isfinite = false ∨ ∃ ε y : ℝ, Near x80 ε y (secPiTimesl L r) ∧ _
  unfold secPiTimesl
  extract_lets m
  split_ifs with h0 h1 h2 h3
  · exact .inr (near_one (Fl.Is.num one_ne_zero) (.inr (.inl rfl)))
  · exact .inl rfl
  · exact .inr (near_one (Fl.Is.num (by norm_num)) (.inr (.inr rfl)))
  · exact .inl rfl
  · obtain ⟨p, i, t, p0, -⟩ := pi_mul (Or.inr rfl) h (fm_ne_zero h h0) hl
    have m := mod_cos t
    exact .inr ⟨_, _, ((hA.cos x80 (Or.inr rfl) _ p i t.rep).near m).inv (Or.inr rfl) m (cos_ne t) (by norm_num [prec80]),
      m.inv, by norm_num [prec80]⟩

theorem pair_cot_pi : Pair L .cot_pi_times w r := by
  refine pair_near rfl rfl hw ?_
  show (cotPiTimesl L r).isfinite = false ∨ ∃ ε y : ℝ, Near x80 ε y (cotPiTimesl L r) ∧ _
  unfold cotPiTimesl
  extract_lets m
  split_ifs with h0 h1
  · exact .inl rfl
  · exact .inr (near_one (Fl.Is.zero _) (.inl rfl))
  · obtain ⟨p, i, t, p0, -⟩ := pi_mul (Or.inr rfl) h (fm_ne_zero h h0) hl
    have m := mod_tan t
    have t0 : Real.tan p ≠ 0 := by rw [Real.tan_eq_sin_div_cos]; exact div_ne_zero (sin_ne t p0) (cos_ne t)
    exact .inr ⟨_, _, ((hA.tan x80 (Or.inr rfl) _ p i t.rep).near m).inv (Or.inr rfl) m t0 (by norm_num [prec80]),
      m.inv, by norm_num [prec80]⟩

end

theorem sc_big {F : Fmt} (hF : F = b64 ∨ F = x80) {f a : Fl} (h : f = .inf false ∨ ∃ z : ℚ, f = .num z ∧ F.In z ∧ (2 : ℚ) ^ (980 : ℤ) ≤ z) :
    ∃ z : ℚ, (fixInf a f).Is z ∧ F.In z ∧ (2 : ℝ) ^ (256 : ℤ) ≤ z := by
  have e : ∀ z : ℚ, (2 : ℚ) ^ (980 : ℤ) ≤ z → (2 : ℝ) ^ (256 : ℤ) ≤ z := fun z hz => by
    have h1 := (Rat.cast_le (K := ℝ)).mpr hz
    rw [Rat.cast_zpow, Rat.cast_ofNat] at h1
    exact (z_le (by norm_num)).trans h1
  rcases h with rfl | ⟨z, rfl, h1, h2⟩
  · obtain ⟨M, e1, p1, i1⟩ := dbl_max' hF
    refine ⟨M, ?_, i1, e _ (le_trans (zpow_le_zpow_right₀ (by norm_num) (by norm_num)) p1)⟩
    show DBL_MAX.Is M
    rw [e1]; exact Fl.Is.num (lt_of_lt_of_le (by positivity) p1).ne'
  · exact ⟨z, Fl.Is.num (lt_of_lt_of_le (by positivity) h2).ne', h1, e _ h2⟩

/-- `2^x - 1` and `10^x - 1`. -/
theorem pair_sc {L : Libm} {u : UFun} (hc : CastFun u = true) (hf : u.fix = fixInf) {w : W} (hw : w ≠ .w64) {r : Fl} {y ε : ℝ}
    (h : Sc x80 ε y (u.evl L r)) (he : ε ≤ 1 / 4) : Pair L u w r := by
  unfold Pair
  rw [hf, ev_b64, evd_cast L hc, ev_x80]
  rcases h with ⟨h1, z, a, b, c⟩ | ⟨h1, h2⟩
  · obtain ⟨s, e⟩ := cast_round (F := b64) a
    obtain ⟨z', a', -⟩ := round_sc (Or.inl rfl) h1 c he s
    rw [← e] at a'
    rw [fixInf_is a, fixInf_is a']
    exact cast_pair hw a b a'.isfinite
  · have g2 : Fl.cast b64 (u.evl L r) = .inf false ∨ ∃ z : ℚ, Fl.cast b64 (u.evl L r) = .num z ∧ b64.In z ∧ (2 : ℚ) ^ (980 : ℤ) ≤ z := by
      rcases h2 with e | ⟨z, e, -, c⟩
      · rw [e]; exact .inl rfl
      · rw [e]; exact big_round (Or.inl rfl) c false
    obtain ⟨p, i, j, k⟩ := sc_big (a := r) (Or.inl rfl) g2
    obtain ⟨q, i', j', k'⟩ := sc_big (a := r) (Or.inr rfl) h2
    exact outside_pair (A := .f64) (B := .ext) i j i' j' (.inl ⟨k, k'⟩)

/-- All functions. -/
theorem pair_all {L : Libm} (hL : L.Conforming) (hA : L.Approximates) (u : UFun) {w : W} (hw : w ≠ .w64) {r : Fl} {v : ℚ} {x : ℝ}
    (h1 : Arg b64 w r v x) (hl : |v| ≤ (2 : ℚ) ^ (258 : ℤ)) : Pair L u w r := by
  have h2 : Arg x80 w r v x := { h1 with isIn := in_x80 (Or.inl rfl) h1.isIn }
  have b : b64 = b64 ∨ b64 = x80 := Or.inl rfl
  have e : x80 = b64 ∨ x80 = x80 := Or.inr rfl
  have c : ∀ {u}, CastFun u = true → u.fix = noFix → Covered u = true → Pair L u w r := fun a b c => pair_cast hL a b c hw h1 h2
  have g : ∀ {u}, argPert u = 0 → (∀ F, resPert F u = 8 / 2 ^ F.prec) → (∀ y, errScale u y = |y|) → Good L u b64 r v → Good L u x80 r v →
    Pair L u w r := fun a b c => pair_good hw a b c
  have n : ∀ F : Fmt, (8 : ℝ) / 2 ^ F.prec = 8 / 2 ^ F.prec := fun _ => rfl
  have s : ∀ y : ℝ, |y| = |y| := fun _ => rfl
  cases u
  case ten_raised => exact g rfl n s (good_ten_raised hA b h1) (good_ten_raised hA e h2)
  case ten_raised_minus_1 => exact pair_sc rfl rfl hw (sub1_sc (by positivity) (pow10_approx hA e h2).ext) (by norm_num)
  case two_raised => exact g rfl n s (good_two_raised hA b h1) (good_two_raised hA e h2)
  case two_raised_minus_1 =>
    exact pair_sc rfl rfl hw (sub1_sc (by positivity) (hA.exp2 x80 e r v h2.is h2.isIn).ext) (by norm_num)
  case exp => exact g rfl n s (good_exp hA b h1) (good_exp hA e h2)
  case exp_minus_1 => exact g rfl n s (good_exp_minus_1 hA b h1) (good_exp_minus_1 hA e h2)
  case ln => exact g rfl n s (good_ln hL hA b h1) (good_ln hL hA e h2)
  case ln_1_plus => exact g rfl n s (good_ln_1_plus hL hA b h1) (good_ln_1_plus hL hA e h2)
  case lb => exact g rfl n s (good_lb hL hA b h1) (good_lb hL hA e h2)
  case lb_1_plus => exact g rfl n s (good_lb_1_plus hL hA b h1) (good_lb_1_plus hL hA e h2)
  case lg => exact g rfl n s (good_lg hL hA b h1) (good_lg hL hA e h2)
  case lg_1_plus => exact g rfl n s (good_lg_1_plus hL hA b h1) (good_lg_1_plus hL hA e h2)
  case sin => exact g rfl n s (good_sin hL hA b h1) (good_sin hL hA e h2)
  case cos => exact g rfl n s (good_cos hL hA b h1) (good_cos hL hA e h2)
  case tan => exact g rfl n s (good_tan hA b h1) (good_tan hA e h2)
  case csc => exact g rfl n s (good_csc hA b h1) (good_csc hA e h2)
  case sec => exact g rfl n s (good_sec hA b h1) (good_sec hA e h2)
  case cot => exact g rfl n s (good_cot hA b h1) (good_cot hA e h2)
  case tan_pi_times => exact pair_tan_pi hA hw h2 hl
  case csc_pi_times => exact pair_csc_pi hA hw h2 hl
  case sec_pi_times => exact pair_sec_pi hA hw h2 hl
  case cot_pi_times => exact pair_cot_pi hA hw h2 hl
  case arcsin => exact g rfl n s (good_arcsin hL hA b h1) (good_arcsin hL hA e h2)
  case arccos => exact g rfl n s (good_arccos hL hA b h1) (good_arccos hL hA e h2)
  case arctan => exact g rfl n s (good_arctan hL hA b h1) (good_arctan hL hA e h2)
  case sinh => exact g rfl n s (good_sinh hA b h1) (good_sinh hA e h2)
  case cosh => exact g rfl n s (good_cosh hA b h1) (good_cosh hA e h2)
  case tanh => exact g rfl n s (good_tanh hL hA b h1) (good_tanh hL hA e h2)
  case csch => exact g rfl n s (good_csch hA b h1 hL) (good_csch hA e h2 hL)
  case sech => exact g rfl n s (good_sech hA b h1) (good_sech hA e h2)
  case arsinh => exact g rfl n s (good_arsinh hL hA b h1) (good_arsinh hL hA e h2)
  case arcosh => exact g rfl n s (good_arcosh hL hA b h1) (good_arcosh hL hA e h2)
  case artanh => exact g rfl n s (good_artanh hL hA b h1) (good_artanh hL hA e h2)
  all_goals exact c rfl rfl rfl

end Takum.Test
