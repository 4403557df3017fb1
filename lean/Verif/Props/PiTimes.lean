import Verif.Lemmas.Domain
import Verif.Lemmas.Ideal
import Mathlib.Analysis.Real.Pi.Bounds

/-!
# The trigonometric functions of multiples of π at integers and half-integers (C45)
-/

namespace Takum
open Spec

/-- The real functions; `none` at a pole. -/
noncomputable def piFn : UFun → ℝ → Option ℝ
  | .sin_pi_times, x => some (Real.sin (x * Real.pi))
  | .cos_pi_times, x => some (Real.cos (x * Real.pi))
  | .tan_pi_times, x => if Real.cos (x * Real.pi) = 0 then none else some (Real.sin (x * Real.pi) / Real.cos (x * Real.pi))
  | .csc_pi_times, x => if Real.sin (x * Real.pi) = 0 then none else some (1 / Real.sin (x * Real.pi))
  | .sec_pi_times, x => if Real.cos (x * Real.pi) = 0 then none else some (1 / Real.cos (x * Real.pi))
  | .cot_pi_times, x => if Real.sin (x * Real.pi) = 0 then none else some (Real.cos (x * Real.pi) / Real.sin (x * Real.pi))
  | _, _ => none

/-- The six functions. -/
def PiFun (u : UFun) : Prop :=
  u = .sin_pi_times ∨ u = .cos_pi_times ∨ u = .tan_pi_times ∨ u = .csc_pi_times ∨ u = .sec_pi_times ∨ u = .cot_pi_times

/-- Sine and cosine of half the circle's quarters. -/
theorem quarter (j i : ℤ) : Real.sin (((4 * j + i : ℤ) / 2 : ℚ) * Real.pi) = Real.sin (i * (Real.pi / 2)) ∧
    Real.cos (((4 * j + i : ℤ) / 2 : ℚ) * Real.pi) = Real.cos (i * (Real.pi / 2)) := by
  have e : (((4 * j + i : ℤ) / 2 : ℚ) : ℝ) * Real.pi = i * (Real.pi / 2) + j * (2 * Real.pi) := by push_cast; ring
  rw [e, Real.sin_add_int_mul_two_pi, Real.cos_add_int_mul_two_pi]
  exact ⟨rfl, rfl⟩

theorem quarters : (Real.sin (((0 : ℤ) : ℝ) * (Real.pi / 2)) = 0 ∧ Real.cos (((0 : ℤ) : ℝ) * (Real.pi / 2)) = 1) ∧
    (Real.sin (((1 : ℤ) : ℝ) * (Real.pi / 2)) = 1 ∧ Real.cos (((1 : ℤ) : ℝ) * (Real.pi / 2)) = 0) ∧
    (Real.sin (((2 : ℤ) : ℝ) * (Real.pi / 2)) = 0 ∧ Real.cos (((2 : ℤ) : ℝ) * (Real.pi / 2)) = -1) ∧
    (Real.sin (((3 : ℤ) : ℝ) * (Real.pi / 2)) = -1 ∧ Real.cos (((3 : ℤ) : ℝ) * (Real.pi / 2)) = 0) := by
  have e2 : ((2 : ℤ) : ℝ) * (Real.pi / 2) = Real.pi := by push_cast; ring
  have e3 : ((3 : ℤ) : ℝ) * (Real.pi / 2) = Real.pi / 2 + Real.pi := by push_cast; ring
  rw [e2, e3, Real.sin_add_pi, Real.cos_add_pi]
  simp

theorem fmod_is {f : Fl} {q p : ℚ} (h : f.Is q) : (Fl.fmod f (.num p)).Is (q - Fl.trunc (q / p) * p) := by
  rcases h.cases with ⟨_, h'⟩ | ⟨h0, s, h'⟩
  · subst h'; exact Fl.Is.mk _ _
  · subst h' h0; exact Fl.Is.mk _ _

theorem trunc_quarter {a b : ℤ} (hb : 0 < b) (h : 0 ≤ a ∨ b ∣ a) : Fl.trunc ((a : ℚ) / b) = a / b := by
  by_cases hd : b ∣ a
  · obtain ⟨c, rfl⟩ := hd
    have hb' : (b : ℚ) ≠ 0 := by exact_mod_cast hb.ne'
    rw [Int.mul_ediv_cancel_left _ hb.ne', Int.cast_mul, mul_div_cancel_left₀ _ hb', Fl.trunc_int]
  · have ha : 0 ≤ a := h.resolve_right hd
    unfold Fl.trunc
    rw [if_pos (by positivity)]
    obtain ⟨n, rfl⟩ := Int.eq_ofNat_of_zero_le ha
    obtain ⟨m, rfl⟩ := Int.eq_ofNat_of_zero_le hb.le
    exact_mod_cast Rat.floor_intCast_div_natCast (n : ℤ) m

theorem fmod_two {f : Fl} {k : ℤ} (h : f.Is (k / 2 : ℚ)) (hk : 0 ≤ k ∨ 4 ∣ k) : (Fl.fmod f (.num 2)).Is ((k % 4 : ℤ) / 2 : ℚ) := by
  refine (fmod_is h).congr ?_
  have := trunc_quarter (a := k) (b := 4) (by norm_num) hk
  rw [show (k / 2 : ℚ) / 2 = (k : ℚ) / (4 : ℤ) by push_cast; ring, this]
  have e : ((k : ℤ) : ℚ) = ((4 * (k / 4) + k % 4 : ℤ) : ℚ) := by rw [Int.mul_ediv_add_emod]
  rw [e]; push_cast; ring_nf

theorem fmod_one {f : Fl} {k : ℤ} (h : f.Is (k / 2 : ℚ)) (hk : 0 ≤ k ∨ 2 ∣ k) : (Fl.fmod f (.num 1)).Is ((k % 2 : ℤ) / 2 : ℚ) := by
  refine (fmod_is h).congr ?_
  have := trunc_quarter (a := k) (b := 2) (by norm_num) hk
  rw [show (k / 2 : ℚ) / 1 = (k : ℚ) / (2 : ℤ) by push_cast; ring, this]
  have e : ((k : ℤ) : ℚ) = ((2 * (k / 2) + k % 2 : ℤ) : ℚ) := by rw [Int.mul_ediv_add_emod]
  rw [e]; push_cast; ring_nf

/-- What the `long double` functions return for each residue. -/
theorem pi_table (L : Libm) {f : Fl} {k : ℤ} (h : f.Is (k / 2 : ℚ)) :
    ((0 ≤ k ∨ 4 ∣ k) →
      sinpil L f = (if k % 4 = 1 then .num 1 else if k % 4 = 3 then .num (-1) else .zero false) ∧
      cospil L f = (if k % 4 = 0 then .num 1 else if k % 4 = 2 then .num (-1) else .zero false) ∧
      cscPiTimesl L f = (if k % 4 = 1 then .num 1 else if k % 4 = 3 then .num (-1) else .nan) ∧
      secPiTimesl L f = (if k % 4 = 0 then .num 1 else if k % 4 = 2 then .num (-1) else .nan)) ∧
    ((0 ≤ k ∨ 2 ∣ k) →
      tanpil L f = (if k % 2 = 0 then .zero false else .nan) ∧ cotPiTimesl L f = (if k % 2 = 0 then .nan else .zero false)) := by
  have z : (Fl.zero false).Is 0 := Fl.Is.zero false
  have n : ∀ q : ℚ, q ≠ 0 → (Fl.num q).Is q := fun q hq => ⟨false, by simp [Fl.mk, hq]⟩
  have b : ∀ {x y : Fl} {p q : ℚ}, x.Is p → y.Is q → Fl.eq x y = decide (p = q) := by
    intro x y p q hx hy; rw [Bool.eq_iff_iff, Fl.eq_iff hx hy]; simp
  constructor
  · intro hk
    have hm := fmod_two h hk
    unfold sinpil cospil cscPiTimesl secPiTimesl
    simp only [b hm z, b hm (n (1 / 2) (by norm_num)), b hm (n 1 (by norm_num)), b hm (n (3 / 2) (by norm_num))]
    have : k % 4 = 0 ∨ k % 4 = 1 ∨ k % 4 = 2 ∨ k % 4 = 3 := by omega
    rcases this with e | e | e | e <;> rw [e] <;> norm_num
  · intro hk
    have hm := fmod_one h hk
    unfold tanpil cotPiTimesl
    simp only [b hm z, b hm (n (1 / 2) (by norm_num))]
    have : k % 2 = 0 ∨ k % 2 = 1 := by omega
    rcases this with e | e <;> rw [e] <;> norm_num

theorem in_one (w : W) : w.src.fmt.In (1 : ℚ) := by have := qv_src (t := ONE w); rwa [qv_one] at this

theorem linFrom_qv {w : W} {t : T w} (h : t ≠ nar w.n) {f : Fl} (hf : f.Is (qv t)) : linFrom w.src w f = .ok t := by
  rw [linFrom_enc hf qv_src, linEnc_qv h]

theorem pi_result {L : Libm} {u : UFun} (hu : PiFun u) {w : W} {t : T w} {r : Fl} (h : linTo w.src w t = .ok r) :
    (u.evl L r = .num 1 → u.lin L w t = .ok (ONE w)) ∧ (u.evl L r = .num (-1) → u.lin L w t = .ok (-ONE w)) ∧
    (u.evl L r = .zero false → u.lin L w t = .ok 0#w.n) ∧ (u.evl L r = .nan → u.lin L w t = .ok (nar w.n)) := by
  have hc : CastFun u = true := by rcases hu with rfl | rfl | rfl | rfl | rfl | rfl <;> rfl
  have hx : u.fix = noFix := by rcases hu with rfl | rfl | rfl | rfl | rfl | rfl <;> rfl
  have e : u.lin L w t = linFrom w.src w (u.ev L w.src.fmt r) := by
    show unaryLin (u.ev L) u.fix w t = _
    rw [unaryLin_eq h, hx]; rfl
  have ev : ∀ x : Fl, (∀ y : Fl, u.evl L r = y → Fl.cast b64 y = x → y = x → u.ev L w.src.fmt r = x) := by
    intro x y h1 h2 h3
    have hs : w.src.fmt = b64 ∨ w.src.fmt = x80 := by cases w <;> simp [W.src, Src.fmt]
    rcases hs with hs | hs <;> rw [hs]
    · rw [ev_b64, evd_cast L hc, h1, h2]
    · rw [ev_x80, h1, h3]
  have o := (ONE_facts w).2.2.1.2
  rw [e]
  refine ⟨fun h1 => ?_, fun h1 => ?_, fun h1 => ?_, fun h1 => ?_⟩
  · rw [ev (.num 1) _ h1 (by decide +kernel) rfl]
    exact linFrom_qv o ⟨false, by rw [qv_one]; rfl⟩
  · rw [ev (.num (-1)) _ h1 (by decide +kernel) rfl]
    exact linFrom_qv (neg_ne_nar o) ⟨false, by rw [qv_neg o, qv_one]; rfl⟩
  · rw [ev (.zero false) _ h1 rfl rfl]; exact linFrom_zero _ _ _
  · rw [ev .nan _ h1 rfl rfl]; exact linFrom_nan _ _

/-- C45 for the arguments that are not negative, and for those negative ones that the code reduces to 0: at
`k/2` the functions are exact, and NaR at the poles. -/
theorem pi_times_partial (L : Libm) {u : UFun} (hu : PiFun u) (w : W) (t : T w) (k : ℤ) (h : linVal t = some (k / 2 : ℚ))
    (hk : 0 ≤ k ∨ 4 ∣ k ∨ 2 ∣ k ∧ (u = .tan_pi_times ∨ u = .cot_pi_times)) :
    ∃ r, u.lin L w t = .ok r ∧ (linVal r).map (fun v : ℚ => (v : ℝ)) = piFn u (k / 2 : ℚ) := by
  have hn : t ≠ nar w.n := by rintro rfl; simp [linVal] at h
  obtain ⟨x, e, hx⟩ := linTo_src w hn
  rw [Option.some.inj ((linVal_qv hn).symm.trans h)] at hx
  obtain ⟨p1, p2, p3, p4⟩ := pi_result (L := L) hu e
  obtain ⟨t1, t2⟩ := pi_table L hx
  have o := (ONE_facts w).2.2.1.2
  have v1 : linVal (ONE w) = some 1 := by rw [linVal_qv o, qv_one]
  have v2 : linVal (-ONE w) = some (-1) := by rw [linVal_qv (neg_ne_nar o), qv_neg o, qv_one]
  have v3 : linVal (0#w.n) = some 0 := by rw [linVal_qv (zero_ne_nar w), qv_zero]
  have v4 : linVal (nar w.n) = none := by simp [linVal]
  obtain ⟨j, i, ek, hi⟩ : ∃ j i : ℤ, k = 4 * j + i ∧ (i = 0 ∨ i = 1 ∨ i = 2 ∨ i = 3) := ⟨k / 4, k % 4, by omega, by omega⟩
  have q := quarter j i
  rw [← ek] at q
  obtain ⟨⟨a0, b0⟩, ⟨a1, b1⟩, ⟨a2, b2⟩, a3, b3⟩ := quarters
  have m2 : ∀ i' : ℤ, i = i' → k % 2 = i' % 2 := by intro i' h; omega
  have m4 : ∀ i' : ℤ, i = i' → k % 4 = i' % 4 := by intro i' h; omega
  have hk4 : (u ≠ .tan_pi_times ∧ u ≠ .cot_pi_times) → 0 ≤ k ∨ 4 ∣ k := by
    rintro ⟨h1, h2⟩
    rcases hk with h | h | ⟨-, h | h⟩
    · exact Or.inl h
    · exact Or.inr h
    · exact absurd h h1
    · exact absurd h h2
  have hk2 : 0 ≤ k ∨ 2 ∣ k := by
    rcases hk with h | h | ⟨h, -⟩
    · exact Or.inl h
    · exact Or.inr (by omega)
    · exact Or.inr h
  rcases hu with rfl | rfl | rfl | rfl | rfl | rfl
  · have T := (t1 (hk4 ⟨by decide, by decide⟩)).1
    simp only [piFn]
    rw [q.1]
    rcases hi with rfl | rfl | rfl | rfl
    · exact ⟨_, p3 (T.trans (by rw [m4 _ rfl]; rfl)), by rw [v3, a0]; simp⟩
    · exact ⟨_, p1 (T.trans (by rw [m4 _ rfl]; rfl)), by rw [v1, a1]; simp⟩
    · exact ⟨_, p3 (T.trans (by rw [m4 _ rfl]; rfl)), by rw [v3, a2]; simp⟩
    · exact ⟨_, p2 (T.trans (by rw [m4 _ rfl]; rfl)), by rw [v2, a3]; simp⟩
  · have T := (t1 (hk4 ⟨by decide, by decide⟩)).2.1
    simp only [piFn]
    rw [q.2]
    rcases hi with rfl | rfl | rfl | rfl
    · exact ⟨_, p1 (T.trans (by rw [m4 _ rfl]; rfl)), by rw [v1, b0]; simp⟩
    · exact ⟨_, p3 (T.trans (by rw [m4 _ rfl]; rfl)), by rw [v3, b1]; simp⟩
    · exact ⟨_, p2 (T.trans (by rw [m4 _ rfl]; rfl)), by rw [v2, b2]; simp⟩
    · exact ⟨_, p3 (T.trans (by rw [m4 _ rfl]; rfl)), by rw [v3, b3]; simp⟩
  · have T := (t2 hk2).1
    simp only [piFn]
    rw [q.1, q.2]
    rcases hi with rfl | rfl | rfl | rfl
    · exact ⟨_, p3 (T.trans (by rw [m2 _ rfl]; rfl)), by rw [v3, a0, b0]; simp⟩
    · exact ⟨_, p4 (T.trans (by rw [m2 _ rfl]; rfl)), by rw [v4, a1, b1]; simp⟩
    · exact ⟨_, p3 (T.trans (by rw [m2 _ rfl]; rfl)), by rw [v3, a2, b2]; simp⟩
    · exact ⟨_, p4 (T.trans (by rw [m2 _ rfl]; rfl)), by rw [v4, a3, b3]; simp⟩
  · have T := (t1 (hk4 ⟨by decide, by decide⟩)).2.2.1
    simp only [piFn]
    rw [q.1]
    rcases hi with rfl | rfl | rfl | rfl
    · exact ⟨_, p4 (T.trans (by rw [m4 _ rfl]; rfl)), by rw [v4, a0]; simp⟩
    · exact ⟨_, p1 (T.trans (by rw [m4 _ rfl]; rfl)), by rw [v1, a1]; simp⟩
    · exact ⟨_, p4 (T.trans (by rw [m4 _ rfl]; rfl)), by rw [v4, a2]; simp⟩
    · exact ⟨_, p2 (T.trans (by rw [m4 _ rfl]; rfl)), by rw [v2, a3]; simp⟩
  · have T := (t1 (hk4 ⟨by decide, by decide⟩)).2.2.2
    simp only [piFn]
    rw [q.2]
    rcases hi with rfl | rfl | rfl | rfl
    · exact ⟨_, p1 (T.trans (by rw [m4 _ rfl]; rfl)), by rw [v1, b0]; simp⟩
    · exact ⟨_, p4 (T.trans (by rw [m4 _ rfl]; rfl)), by rw [v4, b1]; simp⟩
    · exact ⟨_, p2 (T.trans (by rw [m4 _ rfl]; rfl)), by rw [v2, b2]; simp⟩
    · exact ⟨_, p4 (T.trans (by rw [m4 _ rfl]; rfl)), by rw [v4, b3]; simp⟩
  · have T := (t2 hk2).2
    simp only [piFn]
    rw [q.1, q.2]
    rcases hi with rfl | rfl | rfl | rfl
    · exact ⟨_, p4 (T.trans (by rw [m2 _ rfl]; rfl)), by rw [v4, a0, b0]; simp⟩
    · exact ⟨_, p3 (T.trans (by rw [m2 _ rfl]; rfl)), by rw [v3, a1, b1]; simp⟩
    · exact ⟨_, p4 (T.trans (by rw [m2 _ rfl]; rfl)), by rw [v4, a2, b2]; simp⟩
    · exact ⟨_, p3 (T.trans (by rw [m2 _ rfl]; rfl)), by rw [v3, a3, b3]; simp⟩

/-- The hypotheses are met by 7/2 and by -6. -/
example : linVal (0x4b00#16 : T .w16) = some ((7 : ℤ) / 2 : ℚ) ∧ linVal (-0x4e00#16 : T .w16) = some ((-12 : ℤ) / 2 : ℚ) := by decide +kernel

/-! ### Negative arguments -/

theorem x80_four : (4 : ℚ) < 2 ^ x80.emax := by
  have : (4 : ℚ) = 2 ^ (2 : ℤ) := by norm_num
  rw [this]; exact zpow_lt_zpow_right₀ (by norm_num) (by decide)

/-- The constant `PI` is above π by about `5e-20`. -/
theorem pi_above : ∃ p : ℚ, PI = .num p ∧ x80.In p ∧ x80.In (p / 2) ∧ 4 / 10 ^ 20 ≤ (p : ℝ) - Real.pi ∧ (p : ℝ) - Real.pi ≤ 6 / 10 ^ 20 := by
  have h1 := Real.pi_gt_d20
  have h2 := Real.pi_lt_d20
  have e : x80.rq (3.1415926535897932384626433832795028841972 : ℚ) = 14488038916154245685 / 2 ^ 62 := by decide +kernel
  refine ⟨14488038916154245685 / 2 ^ 62, by unfold PI; rw [e], ?_, ?_, ?_, ?_⟩
  · exact ⟨⟨14488038916154245685, -62, by norm_num, by decide, by decide⟩, lt_of_le_of_lt (by norm_num [abs_of_pos]) x80_four⟩
  · exact ⟨⟨14488038916154245685, -63, by norm_num, by decide, by decide⟩, lt_of_le_of_lt (by norm_num [abs_of_pos]) x80_four⟩
  · push_cast; norm_num at *; linarith
  · push_cast; norm_num at *; linarith

/-- What the refutations assume of the math library: near its zeros and poles the sine, cosine and tangent of a
`long double` of magnitude at most 4 have a relative error of at most `2^-50`. -/
structure Libm.NearPi (L : Libm) : Prop where
  sin : ∀ q : ℚ, x80.In q → |q| ≤ 4 → (2 : ℝ) ^ (-80 : ℤ) ≤ |Real.sin q| →
    ∃ z : ℚ, L.sin x80 (.num q) = .num z ∧ x80.In z ∧ |(z : ℝ) - Real.sin q| ≤ (2 : ℝ) ^ (-50 : ℤ) * |Real.sin q|
  cos : ∀ q : ℚ, x80.In q → |q| ≤ 4 → (2 : ℝ) ^ (-80 : ℤ) ≤ |Real.cos q| →
    ∃ z : ℚ, L.cos x80 (.num q) = .num z ∧ x80.In z ∧ |(z : ℝ) - Real.cos q| ≤ (2 : ℝ) ^ (-50 : ℤ) * |Real.cos q|
  tan : ∀ q : ℚ, x80.In q → |q| ≤ 4 → (2 : ℝ) ^ (-80 : ℤ) ≤ |Real.tan q| → |Real.tan q| ≤ (2 : ℝ) ^ (80 : ℤ) →
    ∃ z : ℚ, L.tan x80 (.num q) = .num z ∧ x80.In z ∧ |(z : ℝ) - Real.tan q| ≤ (2 : ℝ) ^ (-50 : ℤ) * |Real.tan q|

/-- A number far from overflow and underflow. -/
def Fl.Nice (x : Fl) : Prop := ∃ z : ℚ, x.Is z ∧ x80.In z ∧ (2 : ℚ) ^ (-100 : ℤ) ≤ |z| ∧ |z| ≤ (2 : ℚ) ^ (100 : ℤ)

theorem nice_rq {F : Fmt} (hF : F = b64 ∨ F = x80) {z : ℚ} (h1 : (2 : ℚ) ^ (-100 : ℤ) ≤ |z|) (h2 : |z| ≤ (2 : ℚ) ^ (100 : ℤ)) :
    (2 : ℚ) ^ (-100 : ℤ) ≤ |F.rq z| ∧ |F.rq z| ≤ (2 : ℚ) ^ (100 : ℤ) ∧ F.In (F.rq z) := by
  obtain ⟨f1, f2, f3⟩ := std_facts hF
  have a := F.abs_rq_le (by omega) (Fmt.Rep.zpow (by omega) (by omega)) h2
  refine ⟨?_, a, F.rq_rep (by omega) z, lt_of_le_of_lt a (zpow_lt_zpow_right₀ (by norm_num) (by omega))⟩
  rw [← F.abs_rq]; exact F.le_rq (by omega) (Fmt.Rep.zpow (by omega) (by omega)) h1

theorem Fl.Nice.inv {x : Fl} (h : x.Nice) : (Fl.div x80 (.num 1) x).Nice := by
  obtain ⟨z, hx, -, h1, h2⟩ := h
  have hz : 0 < |z| := lt_of_lt_of_le (by positivity) h1
  have i1 : (2 : ℚ) ^ (-100 : ℤ) ≤ |1 / z| := by
    rw [abs_div, abs_one, zpow_neg, ← one_div]; exact one_div_le_one_div_of_le hz h2
  have i2 : |1 / z| ≤ (2 : ℚ) ^ (100 : ℤ) := by
    have := one_div_le_one_div_of_le (by positivity) h1
    rwa [one_div ((2 : ℚ) ^ (-100 : ℤ)), ← zpow_neg, neg_neg, ← abs_one (α := ℚ), ← abs_div] at this
  obtain ⟨a, b, c⟩ := nice_rq (Or.inr rfl : x80 = b64 ∨ x80 = x80) i1 i2
  exact ⟨_, Fl.Is.div ⟨false, rfl⟩ hx (abs_pos.mp hz) c.2, c, a, b⟩

theorem nice_lin {L : Libm} {u : UFun} (hu : PiFun u) {w : W} {t : T w} {r : Fl} (h : linTo w.src w t = .ok r)
    (hx : (u.evl L r).Nice) : u.lin L w t ≠ .ok 0#w.n ∧ u.lin L w t ≠ .ok (nar w.n) := by
  have hc : CastFun u = true := by rcases hu with rfl | rfl | rfl | rfl | rfl | rfl <;> rfl
  have hf : u.fix = noFix := by rcases hu with rfl | rfl | rfl | rfl | rfl | rfl <;> rfl
  have e : u.lin L w t = linFrom w.src w (u.ev L w.src.fmt r) := by
    show unaryLin (u.ev L) u.fix w t = _
    rw [unaryLin_eq h, hf]; rfl
  obtain ⟨z, hz, hi, h1, h2⟩ := hx
  have hs : w.src.fmt = b64 ∨ w.src.fmt = x80 := by cases w <;> simp [W.src, Src.fmt]
  obtain ⟨a, b, c⟩ := nice_rq hs h1 h2
  have hv : ∃ v, (u.ev L w.src.fmt r).Is v ∧ w.src.fmt.In v ∧ v ≠ 0 := by
    rcases hs with hs | hs <;> rw [hs] at a c ⊢
    · rw [ev_b64, evd_cast L hc]
      exact ⟨_, hz.cast c.2, c, abs_pos.mp (lt_of_lt_of_le (by positivity) a)⟩
    · rw [ev_x80]
      exact ⟨z, hz, hi, abs_pos.mp (lt_of_lt_of_le (by positivity) h1)⟩
  obtain ⟨v, v1, v2, v3⟩ := hv
  obtain ⟨e1, e2, -⟩ := linEnc_facts (w := w) v2
  rw [e, linFrom_enc v1 v2]
  exact ⟨fun h => v3 (e2.mpr (Except.ok.inj h)), fun h => e1 (Except.ok.inj h)⟩

/-- The result of a function with a small relative error. -/
theorem nice_near {z : ℚ} {y : ℝ} (hi : x80.In z) (h1 : (2 : ℝ) ^ (-80 : ℤ) ≤ |y|) (h2 : |y| ≤ (2 : ℝ) ^ (80 : ℤ))
    (h : |(z : ℝ) - y| ≤ (2 : ℝ) ^ (-50 : ℤ) * |y|) : (Fl.num z).Nice := by
  have hy : 0 < |y| := lt_of_lt_of_le (by positivity) h1
  have s : (2 : ℝ) ^ (-50 : ℤ) ≤ 1 / 2 := by norm_num
  have k : (2 : ℝ) ^ (-50 : ℤ) * |y| ≤ 1 / 2 * |y| := by gcongr
  have k' := h.trans k
  clear s k h
  have t1 := abs_sub_abs_le_abs_sub (z : ℝ) y
  have t2 := abs_sub_abs_le_abs_sub y (z : ℝ)
  rw [abs_sub_comm y] at t2
  have l : (2 : ℝ) ^ (-100 : ℤ) ≤ |(z : ℝ)| := by
    have : (2 : ℝ) ^ (-100 : ℤ) ≤ 1 / 2 * (2 : ℝ) ^ (-80 : ℤ) := by norm_num
    generalize (2 : ℝ) ^ (-100 : ℤ) = A at *
    generalize (2 : ℝ) ^ (-80 : ℤ) = B at *
    linarith
  have r : |(z : ℝ)| ≤ (2 : ℝ) ^ (100 : ℤ) := by
    have : 2 * (2 : ℝ) ^ (80 : ℤ) ≤ (2 : ℝ) ^ (100 : ℤ) := by norm_num
    linarith
  have l' : (2 : ℚ) ^ (-100 : ℤ) ≤ |z| := by
    have : (((2 : ℚ) ^ (-100 : ℤ) : ℚ) : ℝ) ≤ ((|z| : ℚ) : ℝ) := by push_cast; exact l
    exact Rat.cast_le.mp this
  have r' : |z| ≤ (2 : ℚ) ^ (100 : ℤ) := by
    have : ((|z| : ℚ) : ℝ) ≤ (((2 : ℚ) ^ (100 : ℤ) : ℚ) : ℝ) := by rw [Rat.cast_zpow, Rat.cast_abs]; exact r
    exact Rat.cast_le.mp this
  refine ⟨z, ⟨false, ?_⟩, hi, l', r'⟩
  have : z ≠ 0 := abs_pos.mp (lt_of_lt_of_le (by positivity) l')
  simp [Fl.mk, this]

/-- C45 is false at negative arguments: `fmodl` keeps the sign, so -1 and -1/2 are not recognised, and the result is
that for an argument next to the pole or zero. `sin_pi_times(-1)` and `cos_pi_times(-1/2)` are not 0,
`csc_pi_times(-1)`, `tan_pi_times(-1/2)` and `sec_pi_times(-1/2)` are not NaR. -/
theorem pi_times_refuted {L : Libm} (hL : L.NearPi) (w : W) (t : T w) :
    (linVal t = some (-1) →
      UFun.sin_pi_times.lin L w t ≠ .ok 0#w.n ∧ UFun.csc_pi_times.lin L w t ≠ .ok (nar w.n)) ∧
    (linVal t = some (-1 / 2) →
      UFun.cos_pi_times.lin L w t ≠ .ok 0#w.n ∧ UFun.tan_pi_times.lin L w t ≠ .ok (nar w.n) ∧
      UFun.sec_pi_times.lin L w t ≠ .ok (nar w.n) ∧ UFun.cot_pi_times.lin L w t ≠ .ok 0#w.n) := by
  obtain ⟨p, hp, hin, hin2, d1, d2⟩ := pi_above
  have pp := Real.pi_pos
  set d : ℝ := (p : ℝ) - Real.pi with hd
  have ep : (p : ℝ) = Real.pi + d := by rw [hd]; ring
  have d0 : 0 < d := lt_of_lt_of_le (by norm_num) d1
  have p4 : |(-p : ℚ)| ≤ 4 := by
    have : (p : ℝ) ≤ 4 := by have := Real.pi_lt_d2; rw [ep]; linarith [show (6 : ℝ) / 10 ^ 20 ≤ 1 / 2 by norm_num]
    have h' : p ≤ 4 := by exact_mod_cast this
    have : (0 : ℝ) ≤ p := by rw [ep]; linarith
    have h0 : 0 ≤ p := by exact_mod_cast this
    rw [abs_neg, abs_of_nonneg h0]; exact h'
  have m0 : ∀ {f : Fl} {q : ℚ}, f.Is q → x80.In (p * q) → p * q ≠ 0 → Fl.mul x80 PI f = .num (p * q) := by
    intro f q hf h1 h2
    have hp0 : p ≠ 0 := left_ne_zero_of_mul h2
    have := Fl.Is.mul (F := x80) (x := PI) (a := p) ⟨false, by rw [hp]; simp [Fl.mk, hp0]⟩ hf (by rw [x80.rq_of_rep h1.1]; exact h1.2)
    rw [x80.rq_of_rep h1.1] at this
    rcases this.cases with ⟨_, h⟩ | ⟨h0, _⟩
    · exact h
    · exact absurd h0 h2
  have hp0 : p ≠ 0 := by
    rintro rfl
    simp only [Rat.cast_zero] at ep; linarith
  have z : (Fl.zero false).Is 0 := Fl.Is.zero false
  have n : ∀ q : ℚ, q ≠ 0 → (Fl.num q).Is q := fun q hq => ⟨false, by simp [Fl.mk, hq]⟩
  have b : ∀ {x y : Fl} {p q : ℚ}, x.Is p → y.Is q → Fl.eq x y = decide (p = q) := by
    intro x y p q hx hy; rw [Bool.eq_iff_iff, Fl.eq_iff hx hy]; simp
  -- sine near zero
  have sb : ∀ e : ℝ, 2 / 10 ^ 20 ≤ e → e ≤ 6 / 10 ^ 20 → (2 : ℝ) ^ (-80 : ℤ) ≤ Real.sin e ∧ Real.sin e ≤ (2 : ℝ) ^ (80 : ℤ) ∧
      1 / 2 ≤ Real.cos e := by
    intro e h1 h2
    have e0 : 0 < e := lt_of_lt_of_le (by norm_num) h1
    have e1 : e ≤ 1 := h2.trans (by norm_num)
    have c1 := Real.sin_gt_sub_cube e0
    have c2 := Real.sin_le_one e
    have c3 := Real.one_sub_sq_div_two_le_cos (x := e)
    have c4 : e ^ 3 ≤ e := by
      have : e ^ 3 = e * e ^ 2 := by ring
      rw [this]; exact mul_le_of_le_one_right e0.le (by nlinarith)
    refine ⟨?_, c2.trans (by norm_num), by nlinarith⟩
    have : (2 : ℝ) ^ (-80 : ℤ) ≤ 1 / 2 * (2 / 10 ^ 20) := by norm_num
    generalize (2 : ℝ) ^ (-80 : ℤ) = B at *
    linarith
  obtain ⟨s1, s2, -⟩ := sb d (by linarith [show (2 : ℝ) / 10 ^ 20 ≤ 4 / 10 ^ 20 by norm_num]) d2
  obtain ⟨s3, s4, s5⟩ := sb (d / 2) (by linarith) (by linarith)
  constructor
  · intro h
    have hn : t ≠ nar w.n := by rintro rfl; simp [linVal] at h
    obtain ⟨x, e, hx⟩ := linTo_src w hn
    rw [Option.some.inj ((linVal_qv hn).symm.trans h)] at hx
    have hm : (Fl.fmod x (.num 2)).Is (-1) := (fmod_is hx).congr (by decide +kernel)
    have hpi := m0 hx (by rw [mul_neg, mul_one]; exact ⟨hin.1.neg, by rw [abs_neg]; exact hin.2⟩) (by simpa using hp0)
    rw [mul_neg, mul_one] at hpi
    have es : Real.sin ((-p : ℚ) : ℝ) = Real.sin d := by
      rw [show ((-p : ℚ) : ℝ) = -(d + Real.pi) by push_cast; rw [ep]; ring, Real.sin_neg, Real.sin_add_pi, neg_neg]
    have ea : |Real.sin ((-p : ℚ) : ℝ)| = Real.sin d := by rw [es, abs_of_pos (lt_of_lt_of_le (by positivity) s1)]
    obtain ⟨y, y1, y2, y3⟩ := hL.sin (-p) ⟨hin.1.neg, by rw [abs_neg]; exact hin.2⟩ p4 (by rw [ea]; exact s1)
    have N := nice_near y2 (by rw [ea]; exact s1) (by rw [ea]; exact s2) y3
    have k1 : sinpil L x = .num y := by
      unfold sinpil
      simp only [b hm z, b hm (n (1 / 2) (by norm_num)), b hm (n 1 (by norm_num)), b hm (n (3 / 2) (by norm_num))]
      norm_num [hpi, y1]
    have k2 : cscPiTimesl L x = Fl.div x80 (.num 1) (.num y) := by
      unfold cscPiTimesl cscl
      simp only [b hm z, b hm (n (1 / 2) (by norm_num)), b hm (n 1 (by norm_num)), b hm (n (3 / 2) (by norm_num))]
      norm_num [hpi, y1]
    refine ⟨(nice_lin (Or.inl rfl) e ?_).1, (nice_lin (by simp [PiFun]) e ?_).2⟩
    · show (sinpil L x).Nice; rw [k1]; exact N
    · show (cscPiTimesl L x).Nice; rw [k2]; exact N.inv
  · intro h
    have hn : t ≠ nar w.n := by rintro rfl; simp [linVal] at h
    obtain ⟨x, e, hx⟩ := linTo_src w hn
    rw [Option.some.inj ((linVal_qv hn).symm.trans h)] at hx
    have hm : (Fl.fmod x (.num 2)).Is (-1 / 2) := (fmod_is hx).congr (by decide +kernel)
    have hm1 : (Fl.fmod x (.num 1)).Is (-1 / 2) := (fmod_is hx).congr (by decide +kernel)
    have eq : p * (-1 / 2) = -(p / 2) := by ring
    have i2 : x80.In (-(p / 2)) := ⟨hin2.1.neg, by rw [abs_neg]; exact hin2.2⟩
    have hpi := m0 hx (by rw [eq]; exact i2) (by rw [eq]; simpa using hp0)
    rw [eq] at hpi
    have q4 : |(-(p / 2) : ℚ)| ≤ 4 := by
      rw [abs_neg, abs_div]; rw [abs_neg] at p4
      have : |(2 : ℚ)| = 2 := by norm_num
      rw [this]; linarith [abs_nonneg p]
    have arg : ((-(p / 2) : ℚ) : ℝ) = -(d / 2 + Real.pi / 2) := by push_cast; rw [ep]; ring
    have ec : Real.cos ((-(p / 2) : ℚ) : ℝ) = -Real.sin (d / 2) := by rw [arg, Real.cos_neg, Real.cos_add_pi_div_two]
    have es : Real.sin ((-(p / 2) : ℚ) : ℝ) = -Real.cos (d / 2) := by rw [arg, Real.sin_neg, Real.sin_add_pi_div_two]
    have p3 : 0 < Real.sin (d / 2) := lt_of_lt_of_le (by positivity) s3
    have ea : |Real.cos ((-(p / 2) : ℚ) : ℝ)| = Real.sin (d / 2) := by rw [ec, abs_neg, abs_of_pos p3]
    have et : |Real.tan ((-(p / 2) : ℚ) : ℝ)| = Real.cos (d / 2) / Real.sin (d / 2) := by
      rw [Real.tan_eq_sin_div_cos, es, ec, neg_div_neg_eq, abs_of_pos (by positivity)]
    have b1 : (2 : ℝ) ^ (-80 : ℤ) ≤ |Real.tan ((-(p / 2) : ℚ) : ℝ)| := by
      rw [et, le_div_iff₀ p3]
      have : (2 : ℝ) ^ (-80 : ℤ) * Real.sin (d / 2) ≤ (2 : ℝ) ^ (-80 : ℤ) * 1 := by gcongr; exact Real.sin_le_one _
      exact this.trans (le_trans (by norm_num) s5)
    have b2 : |Real.tan ((-(p / 2) : ℚ) : ℝ)| ≤ (2 : ℝ) ^ (80 : ℤ) := by
      rw [et, div_le_iff₀ p3]
      have : (2 : ℝ) ^ (80 : ℤ) * (2 : ℝ) ^ (-80 : ℤ) ≤ (2 : ℝ) ^ (80 : ℤ) * Real.sin (d / 2) := by gcongr
      refine (Real.cos_le_one _).trans (le_trans (by norm_num) this)
    obtain ⟨y, y1, y2, y3⟩ := hL.cos _ i2 q4 (by rw [ea]; exact s3)
    obtain ⟨v, v1, v2, v3⟩ := hL.tan _ i2 q4 b1 b2
    have N := nice_near y2 (by rw [ea]; exact s3) (by rw [ea]; exact s4) y3
    have M := nice_near v2 b1 b2 v3
    have k1 : cospil L x = .num y := by
      unfold cospil
      simp only [b hm z, b hm (n (1 / 2) (by norm_num)), b hm (n 1 (by norm_num)), b hm (n (3 / 2) (by norm_num))]
      norm_num [hpi, y1]
    have k2 : secPiTimesl L x = Fl.div x80 (.num 1) (.num y) := by
      unfold secPiTimesl secl
      simp only [b hm z, b hm (n (1 / 2) (by norm_num)), b hm (n 1 (by norm_num)), b hm (n (3 / 2) (by norm_num))]
      norm_num [hpi, y1]
    have k3 : tanpil L x = .num v := by
      unfold tanpil
      simp only [b hm1 z, b hm1 (n (1 / 2) (by norm_num))]
      norm_num [hpi, v1]
    have k4 : cotPiTimesl L x = Fl.div x80 (.num 1) (.num v) := by
      unfold cotPiTimesl cotl
      simp only [b hm1 z, b hm1 (n (1 / 2) (by norm_num))]
      norm_num [hpi, v1]
    refine ⟨(nice_lin (by simp [PiFun]) e ?_).1, (nice_lin (by simp [PiFun]) e ?_).2, (nice_lin (by simp [PiFun]) e ?_).2,
      (nice_lin (by simp [PiFun]) e ?_).1⟩
    · show (cospil L x).Nice; rw [k1]; exact N
    · show (tanpil L x).Nice; rw [k3]; exact M
    · show (secPiTimesl L x).Nice; rw [k2]; exact N.inv
    · show (cotPiTimesl L x).Nice; rw [k4]; exact M.inv

theorem near_ideal {y : ℝ} (h1 : (2 : ℝ) ^ (-80 : ℤ) ≤ |y|) (h2 : |y| ≤ (2 : ℝ) ^ (80 : ℤ)) :
    ∃ z : ℚ, rnd x80 y = .num z ∧ x80.In z ∧ |(z : ℝ) - y| ≤ (2 : ℝ) ^ (-50 : ℤ) * |y| := by
  have he := rq_real_err (F := x80) (x := y) (le_trans (zpow_le_zpow_right₀ (by norm_num) (by decide)) h1)
  have hb := rq_real_between (F := x80) (r := |y|) (by decide) (by decide) (by decide) h1 h2
  rw [← abs_rq_real _ (by decide)] at hb
  have hlt : |x80.rq y| < (2 : ℚ) ^ x80.emax := lt_of_le_of_lt hb.2 (zpow_lt_zpow_right₀ (by norm_num) (by decide))
  have h0 : x80.rq y ≠ 0 := abs_pos.mp (lt_of_lt_of_le (by positivity) hb.1)
  refine ⟨x80.rq y, ?_, ⟨x80.rq_real_rep (by decide) y, hlt⟩, he.trans ?_⟩
  · unfold rnd; rw [if_neg (not_le.mpr hlt)]; simp [Fl.mk, h0]
  · rw [div_eq_mul_inv, mul_comm]
    gcongr
    norm_num [x80]

theorem ideal_nearPi : ideal.NearPi where
  sin q _ _ h := near_ideal h ((Real.abs_sin_le_one _).trans (by norm_num))
  cos q _ _ h := near_ideal h ((Real.abs_cos_le_one _).trans (by norm_num))
  tan q _ _ h h' := near_ideal h h'

/-- The hypotheses are met, by the ideal library and for each width. -/
example (w : W) : ideal.NearPi ∧ (∃ t : T w, linVal t = some (-1)) ∧ ∃ t : T w, linVal t = some (-1 / 2) := by
  refine ⟨ideal_nearPi, ?_⟩
  cases w
  · exact ⟨⟨0xc0#8, by decide +kernel⟩, ⟨0xc8#8, by decide +kernel⟩⟩
  · exact ⟨⟨0xc000#16, by decide +kernel⟩, ⟨0xc800#16, by decide +kernel⟩⟩
  · exact ⟨⟨0xc0000000#32, by decide +kernel⟩, ⟨0xc8000000#32, by decide +kernel⟩⟩
  · exact ⟨⟨0xc000000000000000#64, by decide +kernel⟩, ⟨0xc800000000000000#64, by decide +kernel⟩⟩

end Takum
