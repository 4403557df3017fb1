import Verif.Lemmas.PiSpecial
import Verif.Lemmas.IdealAcc

/-!
# C45: exactly where the trigonometric functions of multiples of π are 0 and where they are NaR

`pi_times_partial` shows the values at the integers and half-integers that the code recognises. Here: these are all.
Everywhere else the result is a number that is not 0, so at each negative odd integer and each negative half-integer
the functions miss the zero or the pole.
-/

namespace Takum
open Spec

/-- The arguments at which the functions return 0. -/
def ZeroAt : UFun → ℚ → Prop
  | .sin_pi_times, v => (∃ n : ℤ, v = n * 2) ∨ ∃ n : ℕ, v = n
  | .cos_pi_times, v => ∃ n : ℕ, v = n + 1 / 2
  | .tan_pi_times, v => ∃ n : ℤ, v = n
  | .cot_pi_times, v => ∃ n : ℕ, v = n + 1 / 2
  | _, _ => False

/-- The arguments at which the functions return NaR. -/
def PoleAt : UFun → ℚ → Prop
  | .csc_pi_times, v => (∃ n : ℤ, v = n * 2) ∨ ∃ n : ℕ, v = n
  | .sec_pi_times, v => ∃ n : ℕ, v = n + 1 / 2
  | .tan_pi_times, v => ∃ n : ℕ, v = n + 1 / 2
  | .cot_pi_times, v => ∃ n : ℤ, v = n
  | _, _ => False

theorem int_ne_half {v : ℚ} (h : ∃ n : ℤ, v = n) : ¬∃ n : ℕ, v = n + 1 / 2 := by
  obtain ⟨n, rfl⟩ := h
  rintro ⟨m, h⟩
  have : (2 * n : ℚ) = 2 * m + 1 := by linarith
  have : (2 * n : ℤ) = 2 * m + 1 := by exact_mod_cast this
  omega

section
variable {L : Libm} {u : UFun} {w : W} {t : T w} {r : Fl}

theorem ordinary_result (hL : L.Conforming) (hu : PiFun u) (e : linTo w.src w t = .ok r) (h : Ordinary L u r) :
    ∃ z, u.lin L w t = .ok z ∧ z ≠ 0#w.n ∧ z ≠ nar w.n := by
  have hc : CastFun u = true := by rcases hu with rfl | rfl | rfl | rfl | rfl | rfl <;> rfl
  have hx : u.fix = noFix := by rcases hu with rfl | rfl | rfl | rfl | rfl | rfl <;> rfl
  obtain ⟨ε, y, h1, h2, h3, h4⟩ := h
  obtain ⟨q, hq, hi, hd⟩ := near_castfun hc (kF_std .lin w) h4 h2 h1
  have q0 : q ≠ 0 := by
    rintro rfl
    have : (8 : ℝ) / 2 ^ (kF .lin w).prec < 1 := by cases w <;> norm_num [kF, W.src, Src.fmt, b64, x80]
    simp at hd
    have := mul_lt_of_lt_one_left (abs_pos.mpr h3) this
    linarith
  obtain ⟨z, e', z1, z2, -⟩ := kFrom_fin hL.logs (k := .lin) hq hi
  refine ⟨z, ?_, fun h => q0 (z2.mp h), z1⟩
  have := call_eq (u := u) (L := L) (k := .lin) (w := w) (t := t) e
  rw [hx] at this
  exact this.trans e'

end

/-- C45: each function of a linear takum of value `v` is 0 exactly at `ZeroAt` and NaR exactly at `PoleAt`. -/
theorem pi_times_exact_partial {L : Libm} (hL : L.Conforming) (hA : L.Approximates) {u : UFun} (hu : PiFun u) (w : W) (t : T w) (v : ℚ)
    (h : linVal t = some v) :
    ∃ z, u.lin L w t = .ok z ∧ (z = 0#w.n ↔ ZeroAt u v) ∧ (z = nar w.n ↔ PoleAt u v) := by
  have hn : t ≠ nar w.n := by rintro rfl; simp [linVal] at h
  obtain ⟨r, v', e, ha⟩ := kTo_acc hL .lin w (value_lin h)
  obtain ⟨r', e1, hr⟩ := linTo_src w hn
  have er : r' = r := Except.ok.inj (e1.symm.trans e)
  subst er
  rw [Option.some.inj ((linVal_qv hn).symm.trans h)] at hr
  obtain rfl : v' = v := ha.is.unique hr
  obtain ⟨-, -, p3, p4⟩ := pi_result (L := L) hu e1
  have z0 := zero_ne_nar w
  have zero : ∀ {A B : Prop}, u.evl L r' = .zero false → A → ¬B → ∃ z, u.lin L w t = .ok z ∧ (z = 0#w.n ↔ A) ∧ (z = nar w.n ↔ B) :=
    fun he a b => ⟨_, p3 he, by simpa using a, by simpa [z0] using b⟩
  have pole : ∀ {A B : Prop}, u.evl L r' = .nan → ¬A → B → ∃ z, u.lin L w t = .ok z ∧ (z = 0#w.n ↔ A) ∧ (z = nar w.n ↔ B) :=
    fun he a b => ⟨_, p4 he, by simpa [Ne.symm z0] using a, by simpa using b⟩
  have ord : ∀ {A B : Prop}, Ordinary L u r' → ¬A → ¬B → ∃ z, u.lin L w t = .ok z ∧ (z = 0#w.n ↔ A) ∧ (z = nar w.n ↔ B) := by
    intro A B ho a b
    obtain ⟨z, ez, z1, z2⟩ := ordinary_result hL hu e1 ho
    exact ⟨z, ez, by simp [z1, a], by simp [z2, b]⟩
  obtain ⟨S, C, T⟩ := pi_classes hA ha
  rcases hu with rfl | rfl | rfl | rfl | rfl | rfl
  · rcases S with ⟨a, b, -⟩ | ⟨a, b, -⟩
    · exact zero b a id
    · exact ord b a id
  · rcases C with ⟨a, b, -⟩ | ⟨a, b, -⟩
    · exact zero b a id
    · exact ord b a id
  · rcases T with ⟨a, b, -⟩ | ⟨a, b, -⟩ | ⟨a, a', b, -⟩
    · exact zero b a (int_ne_half a)
    · exact pole b (fun c => int_ne_half c a) a
    · exact ord b a a'
  · rcases S with ⟨a, -, b⟩ | ⟨a, -, b⟩
    · exact pole b id a
    · exact ord b id a
  · rcases C with ⟨a, -, b⟩ | ⟨a, -, b⟩
    · exact pole b id a
    · exact ord b id a
  · rcases T with ⟨a, -, b⟩ | ⟨a, -, b⟩ | ⟨a, a', -, b⟩
    · exact pole b (int_ne_half a) a
    · exact zero b a (fun c => int_ne_half c a)
    · exact ord b a' a

/-- The hypotheses are met by 3/4, which is neither a zero nor a pole of any of the six. -/
example : ideal.Conforming ∧ ideal.Approximates ∧ linVal (0x3c#8 : T .w8) = some (3 / 4) ∧ ¬ZeroAt .sin_pi_times (3 / 4) := by
  refine ⟨ideal_conforming, ideal_approximates, by decide +kernel, ?_⟩
  rintro (⟨n, h⟩ | ⟨n, h⟩)
  · have : (3 : ℚ) = n * 8 := by linarith
    have : (3 : ℤ) = n * 8 := by exact_mod_cast this
    omega
  · have : (3 : ℚ) = n * 4 := by linarith
    have : (3 : ℕ) = n * 4 := by exact_mod_cast this
    omega

/-- At every negative odd integer `sin_pi_times` is not 0 and `csc_pi_times` is not NaR. -/
theorem pi_times_odd_refuted {L : Libm} (hL : L.Conforming) (hA : L.Approximates) (w : W) (t : T w) (n : ℕ)
    (h : linVal t = some (-(2 * (n : ℚ) + 1))) :
    (∃ z, UFun.sin_pi_times.lin L w t = .ok z ∧ z ≠ 0#w.n ∧ z ≠ nar w.n) ∧
    (∃ z, UFun.csc_pi_times.lin L w t = .ok z ∧ z ≠ 0#w.n ∧ z ≠ nar w.n) := by
  have no : ¬((∃ i : ℤ, (-(2 * n + 1) : ℚ) = i * 2) ∨ ∃ i : ℕ, (-(2 * n + 1) : ℚ) = i) := by
    rintro (⟨i, h⟩ | ⟨i, h⟩)
    · have : (-(2 * n + 1) : ℤ) = i * 2 := by exact_mod_cast h
      omega
    · have : (-(2 * n + 1) : ℤ) = i := by exact_mod_cast h
      omega
  obtain ⟨a, e, a1, a2⟩ := pi_times_exact_partial hL hA (u := .sin_pi_times) (by simp [PiFun]) w t _ h
  obtain ⟨b, e', b1, b2⟩ := pi_times_exact_partial hL hA (u := .csc_pi_times) (by simp [PiFun]) w t _ h
  exact ⟨⟨a, e, fun h => no (a1.mp h), fun h => a2.mp h⟩, b, e', fun h => b1.mp h, fun h => no (b2.mp h)⟩

/-- At every negative half-integer `cos_pi_times` and `cot_pi_times` are not 0, `sec_pi_times` and `tan_pi_times` are not NaR. -/
theorem pi_times_half_refuted {L : Libm} (hL : L.Conforming) (hA : L.Approximates) (w : W) (t : T w) (n : ℕ)
    (h : linVal t = some (-((n : ℚ) + 1 / 2))) {u : UFun} (hu : u = .cos_pi_times ∨ u = .cot_pi_times ∨ u = .sec_pi_times ∨ u = .tan_pi_times) :
    ∃ z, u.lin L w t = .ok z ∧ z ≠ 0#w.n ∧ z ≠ nar w.n := by
  have n1 : ¬∃ i : ℕ, (-(n + 1 / 2) : ℚ) = i + 1 / 2 := by
    rintro ⟨i, h⟩
    have : (0 : ℚ) ≤ n := n.cast_nonneg
    have : (0 : ℚ) ≤ i := i.cast_nonneg
    linarith
  have n2 : ¬∃ i : ℤ, (-(n + 1 / 2) : ℚ) = i := by
    rintro ⟨i, h⟩
    have : (-(2 * n + 1) : ℚ) = 2 * i := by linarith
    have : (-(2 * n + 1) : ℤ) = 2 * i := by exact_mod_cast this
    omega
  have hp : PiFun u := by rcases hu with rfl | rfl | rfl | rfl <;> simp [PiFun]
  obtain ⟨a, e, a1, a2⟩ := pi_times_exact_partial hL hA hp w t _ h
  refine ⟨a, e, fun h => ?_, fun h => ?_⟩
  · have := a1.mp h
    rcases hu with rfl | rfl | rfl | rfl
    · exact n1 this
    · exact n1 this
    · exact this
    · exact n2 this
  · have := a2.mp h
    rcases hu with rfl | rfl | rfl | rfl
    · exact this
    · exact n2 this
    · exact n1 this
    · exact n1 this

/-- The hypotheses are met by -3 and by -3/2. -/
example : linVal (0xb6#8 : T .w8) = some (-(2 * ((1 : ℕ) : ℚ) + 1)) ∧ linVal (0xbc#8 : T .w8) = some (-(((1 : ℕ) : ℚ) + 1 / 2)) := by
  have a : linVal (0xb6#8 : T .w8) = some (-3) := by decide +kernel
  have b : linVal (0xbc#8 : T .w8) = some (-3 / 2) := by decide +kernel
  rw [a, b]; norm_num

end Takum
