import Verif.Lemmas.Call
import Verif.Lemmas.MonoArg
import Verif.Props.LinArith
import Verif.Props.LogArith
import Verif.Props.PowerMono
import Verif.Lemmas.FlReal
import Mathlib.Analysis.SpecialFunctions.Pow.Real

/-!
# C128: results of different operations compare like the exact values

The result of a basic operation depends on nothing but the exact value, whichever operation it came from, and larger values give no smaller
results: `a + a` and `2 * a`, `a / 2` and `a * 0.5`, `root(a, 2)` and the square root agree, and a quotient that is at most a product is not
rounded to a larger takum than it.
-/

namespace Takum
open Spec

/-- A call of an operation with linear takums, or a takum itself. -/
inductive LinOp (w : W)
  | self (a : T w) | add (a b : T w) | sub (a b : T w) | mul (a b : T w) | div (a b : T w) | sqrt (a : T w)

/-- What the call returns. -/
def LinOp.run {w : W} : LinOp w → C (T w)
  | .self a => .ok a
  | .add a b => linAddition w a b
  | .sub a b => linSubtraction w a b
  | .mul a b => linMultiplication w a b
  | .div a b => linDivision w a b
  | .sqrt a => linSquareRoot w a

/-- The exact value: the operation on the real numbers that the takums stand for. -/
inductive LinOp.Exact {w : W} : LinOp w → ℝ → Prop
  | self {a : T w} {x : ℝ} : value .lin a = some x → Exact (.self a) x
  | add {a b : T w} {x y : ℝ} : value .lin a = some x → value .lin b = some y → Exact (.add a b) (x + y)
  | sub {a b : T w} {x y : ℝ} : value .lin a = some x → value .lin b = some y → Exact (.sub a b) (x - y)
  | mul {a b : T w} {x y : ℝ} : value .lin a = some x → value .lin b = some y → Exact (.mul a b) (x * y)
  | div {a b : T w} {x y : ℝ} : value .lin a = some x → value .lin b = some y → y ≠ 0 → Exact (.div a b) (x / y)
  | sqrt {a : T w} {x : ℝ} : value .lin a = some x → 0 ≤ x → Exact (.sqrt a) (Real.sqrt x)

theorem lin_qv {w : W} {t : T w} {x : ℝ} (h : value .lin t = some x) : t ≠ nar w.n ∧ x = qv t := by
  have hn := value_ne h
  rw [value_lin (linVal_qv hn)] at h
  exact ⟨hn, (Option.some.inj h).symm⟩

/-- Every operation rounds the exact value to the floating type once and converts the result. -/
theorem LinOp.Exact.enc {w : W} {p : LinOp w} {x : ℝ} (h : p.Exact x) :
    p.run = .ok (linEnc w (w.src.fmt.rq x)) ∧ w.src.fmt.In (w.src.fmt.rq x) := by
  cases h with
  | @self a x ha =>
    obtain ⟨na, rfl⟩ := lin_qv ha
    rw [Fmt.rq_cast, rq_qv, linEnc_qv na]
    exact ⟨rfl, qv_src⟩
  | @add a b x y ha hb =>
    obtain ⟨na, rfl⟩ := lin_qv ha
    obtain ⟨nb, rfl⟩ := lin_qv hb
    rw [← Rat.cast_add, Fmt.rq_cast]
    exact ⟨linAddition_eq na nb, rq_src_in (sum_le (qv_lt a) (qv_lt b))⟩
  | @sub a b x y ha hb =>
    obtain ⟨na, rfl⟩ := lin_qv ha
    obtain ⟨nb, rfl⟩ := lin_qv hb
    rw [← Rat.cast_sub, Fmt.rq_cast]
    exact ⟨linSubtraction_eq na nb, rq_src_in (by rw [sub_eq_add_neg]; exact sum_le (qv_lt a) (by rw [abs_neg]; exact qv_lt b))⟩
  | @mul a b x y ha hb =>
    obtain ⟨na, rfl⟩ := lin_qv ha
    obtain ⟨nb, rfl⟩ := lin_qv hb
    rw [← Rat.cast_mul, Fmt.rq_cast]
    exact ⟨linMultiplication_eq na nb, rq_src_in (prod_le (qv_lt a) (qv_lt b))⟩
  | @div a b x y ha hb h0 =>
    obtain ⟨na, rfl⟩ := lin_qv ha
    obtain ⟨nb, rfl⟩ := lin_qv hb
    have rb : Regular b := ⟨by rintro rfl; exact h0 (by rw [qv_zero]; norm_num), nb⟩
    rw [← Rat.cast_div, Fmt.rq_cast]
    exact ⟨linDivision_eq na rb, rq_src_in (quot_le (qv_lt a) rb)⟩
  | @sqrt a x ha h0 =>
    obtain ⟨na, rfl⟩ := lin_qv ha
    by_cases a0 : a = 0#w.n
    · subst a0
      obtain ⟨⟨r, e, -, h⟩, -⟩ := lin_squareRoot_special w 0#w.n
      rw [qv_zero, Rat.cast_zero, Real.sqrt_zero, ← Rat.cast_zero, Fmt.rq_cast, ← qv_zero (n := w.n), rq_qv, linEnc_qv (zero_ne_nar w)]
      exact ⟨by rw [show LinOp.run (.sqrt 0#w.n) = linSquareRoot w 0#w.n from rfl, e, h.mpr rfl], qv_src⟩
    · have ra : Regular a := ⟨a0, na⟩
      have hp : 0 < qv a := lt_of_le_of_ne (by exact_mod_cast h0) (qv_ne ra).symm
      obtain ⟨e, i, -⟩ := linSquareRoot_pos ra hp
      exact ⟨e, i⟩

/-- C128: the results of operations with linear takums are ordered like the exact values. -/
theorem lin_operations_ordered (w : W) (p q : LinOp w) (x y : ℝ) (hx : p.Exact x) (hy : q.Exact y) (h : x ≤ y) :
    ∃ u v : T w, p.run = .ok u ∧ q.run = .ok v ∧ u.toInt ≤ v.toInt :=
  ⟨_, _, hx.enc.1, hy.enc.1, linEnc_mono hx.enc.2 hy.enc.2 (Fmt.rq_mono _ (src_prec w) h)⟩

/-- C128: operations with the same exact value have the same result. -/
theorem lin_operations_agree (w : W) (p q : LinOp w) (x : ℝ) (hx : p.Exact x) (hy : q.Exact x) : p.run = q.run := by
  rw [hx.enc.1, hy.enc.1]

/-- C128: doubling, and division by a takum whose inverse is a takum. -/
theorem lin_double_and_divide (w : W) (a b c : T w) (x : ℝ) (ha : value .lin a = some x) :
    (value .lin b = some 2 → linAddition w a a = linMultiplication w a b) ∧
    (∀ y : ℝ, y ≠ 0 → value .lin b = some y → value .lin c = some y⁻¹ → linDivision w a b = linMultiplication w a c) := by
  refine ⟨fun hb => ?_, fun y hy hb hc => ?_⟩
  · refine lin_operations_agree w (.add a a) (.mul a b) (x + x) (.add ha ha) ?_
    have := LinOp.Exact.mul ha hb
    rwa [mul_two] at this
  · refine lin_operations_agree w (.div a b) (.mul a c) (x / y) (.div ha hb hy) ?_
    have := LinOp.Exact.mul ha hc
    rwa [← div_eq_mul_inv] at this

/-- A call of an operation with logarithmic takums, or a takum itself. -/
inductive LogOp (w : W)
  | self (a : T w) | inv (a : T w) | mul (a b : T w) | div (a b : T w) | sqrt (a : T w) | pow (a : T w) (n : BitVec 64) | root (a : T w) (n : BitVec 64)

/-- What the call returns. -/
def LogOp.run (L : Libm) {w : W} : LogOp w → C (T w)
  | .self a => .ok a
  | .inv a => .ok (inversion w a)
  | .mul a b => multiplication w a b
  | .div a b => division w a b
  | .sqrt a => squareRoot w a
  | .pow a n => integerPower L w a n
  | .root a n => Takum.root w a n

/-- The exact value: the operation on the real numbers that the takums stand for; for the 64-bit integer power, which is computed with
`powl`, and for indices of more than 24 bits, which are rounded, nothing is said. -/
inductive LogOp.Exact {w : W} : LogOp w → ℝ → Prop
  | self {a : T w} {x : ℝ} : value .log a = some x → Exact (.self a) x
  | inv {a : T w} {x : ℝ} : value .log a = some x → x ≠ 0 → Exact (.inv a) x⁻¹
  | mul {a b : T w} {x y : ℝ} : value .log a = some x → value .log b = some y → Exact (.mul a b) (x * y)
  | div {a b : T w} {x y : ℝ} : value .log a = some x → value .log b = some y → y ≠ 0 → Exact (.div a b) (x / y)
  | sqrt {a : T w} {x : ℝ} : value .log a = some x → 0 ≤ x → Exact (.sqrt a) (Real.sqrt x)
  | pow {a : T w} {x : ℝ} {n : BitVec 64} : w ≠ .w64 → |n.toInt| < 2 ^ 24 → value .log a = some x → (x ≠ 0 ∨ 0 < n.toInt) →
      Exact (.pow a n) (x ^ n.toInt)
  | root {a : T w} {x : ℝ} {n : BitVec 64} : |n.toInt| < 2 ^ 24 → n.toInt ≠ 0 → value .log a = some x → (0 < x ∨ x = 0 ∧ 0 < n.toInt) →
      Exact (.root a n) (x ^ ((n.toInt : ℝ)⁻¹))
  | oddRoot {a : T w} {x : ℝ} {n : BitVec 64} : |n.toInt| < 2 ^ 24 → n.toInt % 2 = 1 → value .log a = some x → x < 0 →
      Exact (.root a n) (-((-x) ^ ((n.toInt : ℝ)⁻¹)))

theorem log_cases {w : W} {t : T w} {x : ℝ} (h : value .log t = some x) :
    (t = 0#w.n ∧ x = 0) ∨ (Regular t ∧ x = ((sg t.msb : ℚ) : ℝ) * logG (ell t)) := by
  have hn := value_ne h
  by_cases h0 : t = 0#w.n
  · left; subst h0; rw [value_zero] at h; exact ⟨rfl, (Option.some.inj h).symm⟩
  · right
    have := logVal_regular (by have := w.n_pos; omega) ⟨h0, hn⟩
    rw [show value .log t = logVal t from rfl, this] at h
    exact ⟨⟨h0, hn⟩, (Option.some.inj h).symm⟩

/-- Every operation rounds the exact exponent to the floating type once and encodes the result. -/
theorem LogOp.Exact.enc (L : Libm) {w : W} {p : LogOp w} {x : ℝ} (h : p.Exact x) :
    (x = 0 ∧ p.run L = .ok 0#w.n) ∨
      ∃ (s : Bool) (l : Fl) (q : ℚ), x = ((sg s : ℚ) : ℝ) * logG q ∧ l.Is (w.lF.rq q) ∧ p.run L = fromSAndL w s l := by
  have h8 := w.n_pos
  have rn : ∀ n : BitVec 64, |n.toInt| < 2 ^ 24 → w.lF.rq (n.toInt : ℚ) = n.toInt := fun n hn =>
    w.lF.rq_of_rep (Fmt.Rep.int (by have := w.lF_prec; omega) (hn.trans_le (pow_le_pow_right₀ (by norm_num) w.lF_prec.1)))
  have self : ∀ {a : T w}, Regular a → ∃ l : Fl, l.Is (w.lF.rq (ell a)) ∧ fromSAndL w a.msb l = .ok a := fun {a} ra => by
    obtain ⟨l, -, il⟩ := toL_regular w a ra
    exact ⟨l, by rw [w.lF.rq_of_rep (ell_in w a).1]; exact il, enc_of_ell ra il⟩
  have ls : ∀ s : Bool, ((sg s : ℚ) : ℝ) * ((sg s : ℚ) : ℝ) = 1 := fun s => by cases s <;> norm_num [sg]
  have inv : ∀ q : ℚ, logG (-q) = (logG q)⁻¹ := fun q => by
    rw [logG_exp, logG_exp, ← Real.exp_neg]; congr 1; push_cast; ring
  have rt : ∀ (q : ℚ) (n : ℤ), logG (q / n) = logG q ^ ((n : ℝ)⁻¹) := fun q n => by
    rw [logG_exp, logG_exp, ← Real.exp_mul]; congr 1; push_cast; ring
  cases h with
  | @self a x ha =>
    rcases log_cases ha with ⟨rfl, rfl⟩ | ⟨ra, rfl⟩
    · exact .inl ⟨rfl, rfl⟩
    · obtain ⟨l, il, e⟩ := self ra
      exact .inr ⟨_, l, _, rfl, il, e.symm⟩
  | @inv a x ha h0 =>
    rcases log_cases ha with ⟨rfl, rfl⟩ | ⟨ra, rfl⟩
    · exact absurd rfl h0
    · obtain ⟨i1, -, i3, i4⟩ := inversion_facts ra
      obtain ⟨l, il, e⟩ := self i3
      refine .inr ⟨_, l, _, ?_, il, e.symm⟩
      rw [i1, i4, inv, mul_inv]
      congr 1
      exact inv_eq_of_mul_eq_one_left (ls _)
  | @mul a b x y ha hb =>
    rcases log_cases ha with ⟨rfl, rfl⟩ | ⟨ra, rfl⟩
    · left; rw [zero_mul]; exact ⟨rfl, by rw [show LogOp.run L (.mul 0#w.n b) = _ from multiplication_comm' w _ _]; exact multiplication_zero (value_ne hb)⟩
    rcases log_cases hb with ⟨rfl, rfl⟩ | ⟨rb, rfl⟩
    · left; rw [mul_zero]; exact ⟨rfl, multiplication_zero ra.2⟩
    obtain ⟨l, il, e⟩ := multiplication_regular ra rb
    exact .inr ⟨_, l, _, by rw [sg_xor, logG_add]; push_cast; ring, il, e⟩
  | @div a b x y ha hb h0 =>
    rcases log_cases hb with ⟨rfl, rfl⟩ | ⟨rb, rfl⟩
    · exact absurd rfl h0
    rcases log_cases ha with ⟨rfl, rfl⟩ | ⟨ra, rfl⟩
    · left; rw [zero_div]; exact ⟨rfl, (division_special w b).2.2.2.1 rb⟩
    obtain ⟨i1, -, i3, i4⟩ := inversion_facts rb
    obtain ⟨l, il, e⟩ := multiplication_regular ra i3
    refine .inr ⟨_, l, _, ?_, il, by rw [← e]; exact division_eq w a b⟩
    rw [sg_xor, logG_add, i1, i4, inv, div_eq_mul_inv, mul_inv]
    have : ((sg b.msb : ℚ) : ℝ)⁻¹ = ((sg b.msb : ℚ) : ℝ) := inv_eq_of_mul_eq_one_left (ls _)
    rw [this]; push_cast; ring
  | @sqrt a x ha h0 =>
    rcases log_cases ha with ⟨rfl, rfl⟩ | ⟨ra, rfl⟩
    · left; rw [Real.sqrt_zero]; exact ⟨rfl, (squareRoot_special w 0#w.n).2.mpr rfl⟩
    cases hm : a.msb with
    | true =>
      rw [hm] at h0
      have := logG_pos (ell a)
      simp only [sg, if_true] at h0; push_cast at h0; linarith
    | false =>
      obtain ⟨l, il, e⟩ := squareRoot_regular ra hm
      refine .inr ⟨false, l, ell a / 2, ?_, by rw [w.lF.rq_of_rep (ell_half_rep a)]; exact il, e⟩
      have := rt (ell a) 2
      push_cast at this
      rw [this, Real.sqrt_eq_rpow]; norm_num [sg]
  | @pow a x n hw hn ha h0 =>
    rcases log_cases ha with ⟨rfl, rfl⟩ | ⟨ra, rfl⟩
    · have h0 : 0 < n.toInt := by rcases h0 with h | h; exacts [absurd rfl h, h]
      left; rw [zero_zpow _ h0.ne']; exact ⟨rfl, (integerPower_special L w hw 0#w.n n).2.mpr ⟨rfl, h0⟩⟩
    obtain ⟨l, il, e⟩ := integerPowerL_regular ra n
    rw [rn n hn] at il
    refine .inr ⟨_, l, _, ?_, il, by rw [← e]; exact integerPower_eq L hw a n⟩
    rw [mul_zpow]
    congr 1
    · cases a.msb
      · simp [sg]
      · rcases Int.even_or_odd n.toInt with ho | ho
        · have : odd n.toInt = false := by
            rw [← Bool.not_eq_true, odd_iff]; have := Int.even_iff.mp ho; omega
          rw [this]; simp only [sg, if_true, Bool.and_false]; push_cast; rw [ho.neg_one_zpow]
        · rw [(odd_iff _).mpr (Int.odd_iff.mp ho)]; simp only [sg, if_true, Bool.and_true]; push_cast; exact ho.neg_one_zpow
    · rw [logG_exp, logG_exp, ← Real.rpow_intCast, ← Real.exp_mul]; congr 1; push_cast; ring
  | @root a x n hn n0 ha h0 =>
    have n0' : n ≠ 0#64 := by rintro rfl; exact n0 rfl
    rcases log_cases ha with ⟨rfl, rfl⟩ | ⟨ra, rfl⟩
    · have h0 : 0 < n.toInt := by rcases h0 with h | h; exacts [absurd h (lt_irrefl _), h.2]
      left
      rw [Real.zero_rpow (inv_ne_zero (by exact_mod_cast n0))]
      exact ⟨rfl, (root_special w 0#w.n n).2.mpr ⟨rfl, h0⟩⟩
    have hp := logG_pos (ell a)
    cases hm : a.msb with
    | true =>
      rw [hm] at h0
      simp only [sg, if_true] at h0; push_cast at h0
      rcases h0 with h0 | h0
      · linarith
      · linarith [h0.1]
    | false =>
      obtain ⟨l, il, e⟩ := root_regular ra n0' (by rw [hm]; simp)
      rw [rn n hn] at il
      rw [hm] at e
      refine .inr ⟨false, l, _, ?_, il, e⟩
      rw [rt]; simp [sg]
  | @oddRoot a x n hn ho ha h0 =>
    have n0' : n ≠ 0#64 := by rintro rfl; exact absurd ho (by decide)
    rcases log_cases ha with ⟨rfl, rfl⟩ | ⟨ra, rfl⟩
    · exact absurd h0 (lt_irrefl _)
    have hp := logG_pos (ell a)
    cases hm : a.msb with
    | false =>
      rw [hm] at h0
      simp only [sg, Bool.false_eq_true, if_false] at h0; push_cast at h0; linarith
    | true =>
      obtain ⟨l, il, e⟩ := root_regular ra n0' (fun _ => ho)
      rw [rn n hn] at il
      rw [hm] at e
      refine .inr ⟨true, l, _, ?_, il, e⟩
      rw [rt]; simp [sg]

/-- C128: the results of operations with logarithmic takums are ordered like the exact values. -/
theorem log_operations_ordered (L : Libm) (w : W) (p q : LogOp w) (x y : ℝ) (hx : p.Exact x) (hy : q.Exact y) (h : x ≤ y) :
    ∃ u v : T w, p.run L = .ok u ∧ q.run L = .ok v ∧ u.toInt ≤ v.toInt := by
  have h8 := w.n_pos
  have hr := fun q => lF_rep_encF (lF_rq_rep w q)
  have sgn : ∀ (s : Bool) (r : ℚ), ((sg s : ℚ) : ℝ) * logG r < 0 ↔ s = true := fun s r => by
    have := logG_pos r
    cases s <;> simp [sg, this, this.le]
  have ord : ∀ (s : Bool) (r r' : ℚ), ((sg s : ℚ) : ℝ) * logG r ≤ ((sg s : ℚ) : ℝ) * logG r' → sg s * r ≤ sg s * r' := fun s r r' h => by
    cases s
    · simpa [sg, logG_mono.le_iff_le] using h
    · simpa [sg, logG_mono.le_iff_le] using h
  rcases hx.enc L with ⟨rfl, e⟩ | ⟨s, l, r, rfl, il, e⟩ <;> rcases hy.enc L with ⟨rfl, e'⟩ | ⟨s', l', r', rfl, il', e'⟩
  · exact ⟨_, _, e, e', le_rfl⟩
  · obtain ⟨v, ev, rv, sv⟩ := enc_regular (w := w) s' il' (hr _)
    refine ⟨_, v, e, by rw [e', ev], ?_⟩
    have : ¬ s' = true := fun hs => absurd ((sgn s' r').mpr hs) (not_lt.mpr h)
    rw [BitVec.toInt_zero]
    refine le_of_lt ((toInt_pos_iff (by omega) rv).mpr ?_)
    rw [sv]; simpa using this
  · obtain ⟨u, eu, ru, su⟩ := enc_regular (w := w) s il (hr _)
    refine ⟨u, _, by rw [e, eu], e', ?_⟩
    rw [BitVec.toInt_zero]
    refine le_of_lt ((toInt_neg_iff (by omega) ru).mpr ?_)
    have := logG_pos r
    rw [su, ← sgn s r]
    exact lt_of_le_of_ne h (mul_ne_zero (by cases s <;> norm_num [sg]) this.ne')
  · by_cases hs : s = s'
    · subst hs
      obtain ⟨u, v, eu, ev, h1, -⟩ := enc_both (w := w) s il il'
      exact ⟨u, v, by rw [e, eu], by rw [e', ev], h1 (ord s r r' h)⟩
    · obtain ⟨u, eu, ru, su⟩ := enc_regular (w := w) s il (hr _)
      obtain ⟨v, ev, rv, sv⟩ := enc_regular (w := w) s' il' (hr _)
      refine ⟨u, v, by rw [e, eu], by rw [e', ev], ?_⟩
      have hs' : s' = false := by
        by_contra hc
        have hc : s' = true := by simpa using hc
        have := h.trans_lt ((sgn s' r').mpr hc)
        rw [sgn] at this
        exact hs (this.trans hc.symm)
      have hs1 : s = true := by cases s; exacts [absurd hs'.symm hs, rfl]
      have := (toInt_neg_iff (by omega) ru).mpr (su.trans hs1)
      have := (toInt_pos_iff (by omega) rv).mpr (sv.trans hs')
      omega

/-- C128: operations with the same exact value have the same result. -/
theorem log_operations_agree (L : Libm) (w : W) (p q : LogOp w) (x : ℝ) (hx : p.Exact x) (hy : q.Exact x) : p.run L = q.run L := by
  obtain ⟨u, v, eu, ev, h1⟩ := log_operations_ordered L w p q x x hx hy le_rfl
  obtain ⟨v', u', ev', eu', h2⟩ := log_operations_ordered L w q p x x hy hx le_rfl
  rw [eu] at eu'; rw [ev] at ev'
  obtain rfl := Except.ok.inj eu'
  obtain rfl := Except.ok.inj ev'
  rw [eu, ev, BitVec.eq_of_toInt_eq (le_antisymm h1 h2)]

/-- C128: the second root is the square root, the first root and the first power change nothing, the root and the power with index -1 are the
inverse, the second power is the square. -/
theorem log_small_indices (L : Libm) (w : W) (a : T w) (x : ℝ) (ha : value .log a = some x) :
    (0 ≤ x → root w a 2#64 = squareRoot w a) ∧ root w a 1#64 = .ok a ∧ (x ≠ 0 → root w a (-1#64) = .ok (inversion w a)) ∧
    (w ≠ .w64 → integerPower L w a 1#64 = .ok a ∧ integerPower L w a 2#64 = multiplication w a a ∧
      (x ≠ 0 → integerPower L w a (-1#64) = .ok (inversion w a))) := by
  have i1 : (1#64).toInt = 1 := by decide
  have i2 : (2#64).toInt = 2 := by decide
  have im : (-1#64).toInt = -1 := by decide
  refine ⟨fun h => ?_, ?_, fun h => ?_, fun hw => ⟨?_, ?_, fun h => ?_⟩⟩
  · refine log_operations_agree L w (.root a 2#64) (.sqrt a) (Real.sqrt x) ?_ (.sqrt ha h)
    have := LogOp.Exact.root (n := 2#64) (by decide) (by decide) ha (h.lt_or_eq.imp_right fun h => ⟨h.symm, by decide⟩)
    rw [i2] at this
    rw [Real.sqrt_eq_rpow, one_div]; exact_mod_cast this
  · refine log_operations_agree L w (.root a 1#64) (.self a) x ?_ (.self ha)
    rcases lt_trichotomy x 0 with h | h | h
    · have := LogOp.Exact.oddRoot (n := 1#64) (by decide) (by decide) ha h
      rw [i1] at this; simpa using this
    · have := LogOp.Exact.root (n := 1#64) (by decide) (by decide) ha (.inr ⟨h, by decide⟩)
      rw [i1] at this; simpa using this
    · have := LogOp.Exact.root (n := 1#64) (by decide) (by decide) ha (.inl h)
      rw [i1] at this; simpa using this
  · refine log_operations_agree L w (.root a (-1#64)) (.inv a) x⁻¹ ?_ (.inv ha h)
    rcases lt_or_gt_of_ne h with h | h
    · have := LogOp.Exact.oddRoot (n := -1#64) (by decide) (by decide) ha h
      rw [im] at this
      have e : ((-1 : ℤ) : ℝ)⁻¹ = -1 := by norm_num
      rw [e, Real.rpow_neg_one, inv_neg, neg_neg] at this
      exact this
    · have := LogOp.Exact.root (n := -1#64) (by decide) (by decide) ha (.inl h)
      rw [im] at this
      have e : ((-1 : ℤ) : ℝ)⁻¹ = -1 := by norm_num
      rw [e, Real.rpow_neg_one] at this
      exact this
  · refine log_operations_agree L w (.pow a 1#64) (.self a) x ?_ (.self ha)
    have := LogOp.Exact.pow (n := 1#64) hw (by decide) ha (.inr (by decide))
    rwa [i1, zpow_one] at this
  · refine log_operations_agree L w (.pow a 2#64) (.mul a a) (x * x) ?_ (.mul ha ha)
    have := LogOp.Exact.pow (n := 2#64) hw (by decide) ha (.inr (by decide))
    rwa [i2, zpow_two] at this
  · refine log_operations_agree L w (.pow a (-1#64)) (.inv a) x⁻¹ ?_ (.inv ha h)
    have := LogOp.Exact.pow (n := -1#64) hw (by decide) ha (.inl h)
    rwa [im, zpow_neg_one] at this

/-- With 16 bits: `3 * 3` is at most `5 + 5`. -/
example : ∃ u v : T .w16, linMultiplication .w16 0x4a00#16 0x4a00#16 = .ok u ∧ linAddition .w16 0x4d00#16 0x4d00#16 = .ok v ∧ u.toInt ≤ v.toInt := by
  have h3 : value .lin (0x4a00#16 : T .w16) = some ((3 : ℚ) : ℝ) := value_lin (by decide +kernel)
  have h5 : value .lin (0x4d00#16 : T .w16) = some ((5 : ℚ) : ℝ) := value_lin (by decide +kernel)
  exact lin_operations_ordered .w16 (.mul _ _) (.add _ _) _ _ (.mul h3 h3) (.add h5 h5) (by norm_num)

example (L : Libm) : root .w16 (0x4400#16) 2#64 = squareRoot .w16 (0x4400#16) ∧ integerPower L .w16 (0x4400#16) 2#64 = multiplication .w16 0x4400#16 0x4400#16 := by
  have hv : value .log (0x4400#16 : T .w16) = some (((sg (0x4400#16).msb : ℚ) : ℝ) * logG (ell (0x4400#16 : T .w16))) :=
    logVal_regular (by decide) (by unfold Regular; decide)
  obtain ⟨h1, -, -, h2⟩ := log_small_indices L .w16 _ _ hv
  refine ⟨h1 ?_, (h2 (by decide)).2.1⟩
  rw [show (0x4400#16 : T .w16).msb = false by decide]
  simpa [sg] using (logG_pos _).le

end Takum
