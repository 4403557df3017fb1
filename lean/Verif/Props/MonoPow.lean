import Verif.Lemmas.BinAcc2
import Verif.Props.MonoTwo

/-!
# C124: the powers and roots computed with `powl`

`takum64_integer_power`, `takum_linearN_integer_power` and `takum_linearN_root` of positive numbers are monotone, for all 2^64 exponents and
indices. (The other logarithmic powers and roots do not use the math library; see C121.)
-/

namespace Takum
open Spec

/-- The `long double` of a positive takum. -/
theorem eTo_pos {L : Libm} (hL : L.Conforming) (k : Kind) {w : W} {t : T w} {x : ℝ} (hx : value k t = some x) (h0 : 0 < x) :
    ∃ (r : Fl) (v : ℚ), eTo L k w t = .ok r ∧ r.Is v ∧ x80.In v ∧ 0 < v ∧ (1 ≤ x → 1 ≤ v) ∧ (x ≤ 1 → v ≤ 1) := by
  cases k
  · obtain ⟨r, v, e, A⟩ := kTo_acc hL .log w hx
    have p := arg_positive A h0
    have one := A.one
    have small := A.small
    rw [abs_of_pos h0, abs_of_pos p] at one small
    refine ⟨r, v, e, A.is, A.isIn, p, fun h1 => not_lt.mp fun h' => absurd (small.mpr h') (not_lt.mpr h1), fun h1 => ?_⟩
    rcases h1.lt_or_eq with h | h
    · exact (small.mp h).le
    · exact (one.mp h).le
  · obtain ⟨r, v, e, i, n, -, -, -, -, -, hv⟩ := eTo_acc hL .lin w hx
    obtain rfl := hv rfl
    exact ⟨r, v, e, i, n, by exact_mod_cast h0, fun h => by exact_mod_cast h, fun h => by exact_mod_cast h⟩

theorem eTo_mono {L : Libm} (hL : L.Conforming) (k : Kind) {w : W} {a b : T w} {x y : ℝ} (hx : value k a = some x) (hy : value k b = some y)
    (h : x ≤ y) {r s : Fl} {v u : ℚ} (er : eTo L k w a = .ok r) (es : eTo L k w b = .ok s) (hr : r.Is v) (hs : s.Is u) : v ≤ u := by
  cases k
  · exact kTo_mono hL .log w hx hy ((value_order .log hx hy).mpr h) er es hr hs
  · obtain ⟨r', v', e, i, -, -, -, -, -, -, hv⟩ := eTo_acc hL .lin w hx
    obtain ⟨s', u', e', i', -, -, -, -, -, -, hu⟩ := eTo_acc hL .lin w hy
    rw [er] at e; rw [es] at e'; cases e; cases e'
    obtain rfl := hr.unique i
    obtain rfl := hs.unique i'
    rw [← hv rfl, ← hu rfl] at h
    exact_mod_cast h

section
variable {L : Libm} (hL : L.Conforming) (hm : Increasing L.log)
include hL hm

/-- Ordered floats (or floats beyond the range on the same side) give ordered takums. -/
theorem eFrom_cl (k : Kind) {w : W} {f g : Fl} (h : Cl x80 f g) :
    ∃ (s t : T w) (y z : ℝ), eFrom L k w f = .ok s ∧ eFrom L k w g = .ok t ∧ value k s = some y ∧ value k t = some z ∧ y ≤ z := by
  obtain ⟨a, b, ha, hb, ia, ib, h⟩ := h
  obtain ⟨s, y, e1, hy, fs⟩ := eFrom_faithful hL k (w := w) f a ha ia
  obtain ⟨t, z, e2, hz, ft⟩ := eFrom_faithful hL k (w := w) g b hb ib
  obtain ⟨y', vy⟩ := value_some (k := k) fs.1
  obtain ⟨z', vz⟩ := value_some (k := k) ft.1
  refine ⟨s, t, y', z', e1, e2, vy, vz, (value_order k vy vz).mp ?_⟩
  rcases h with h | h
  · obtain ⟨s', t', h1, h2, h3⟩ : ∃ s' t' : T w, eFrom L k w f = .ok s' ∧ eFrom L k w g = .ok t' ∧ s'.toInt ≤ t'.toInt := by
      cases k
      · exact logFrom_mono hL.logs hm .ext w ha hb ia ib h
      · exact linFrom_mono .ext w ha hb ia ib h
    rw [e1] at h1; rw [e2] at h2; cases h1; cases h2; exact h3
  · exact faithful_cl k w hy fs hz ft h

/-- The same if the takums are known. -/
theorem eFrom_cl_le (k : Kind) {w : W} {f g : Fl} (h : Cl x80 f g) {s t : T w} {y z : ℝ} (es : eFrom L k w f = .ok s) (et : eFrom L k w g = .ok t)
    (hy : value k s = some y) (hz : value k t = some z) : y ≤ z := by
  obtain ⟨s', t', y', z', h1, h2, h3, h4, h5⟩ := eFrom_cl hL hm k h
  rw [es] at h1; rw [et] at h2; cases h1; cases h2
  rw [hy] at h3; rw [hz] at h4; cases h3; cases h4; exact h5

variable (hT : L.MonotoneTwo)
include hT

omit hm hT in
/-- `powl` of positive numbers, ordered and replaced as in `src/integer_power.c`. -/
theorem powl_cl {x z x' z' : Fl} {p c p' c' : ℚ} (hx : x.Is p) (hz : z.Is c) (ip : x80.In p) (ic : x80.In c) (h : 0 < p)
    (hx' : x'.Is p') (hz' : z'.Is c') (ip' : x80.In p') (ic' : x80.In c') (h' : 0 < p') (hle : Fl.le (L.pow x80 x z) (L.pow x80 x' z') = true) :
    Cl x80 (fixExp x (L.pow x80 x z)) (fixExp x' (L.pow x80 x' z')) := by
  have a := pow_pos_facts hL X2 hx hz ip ic h
  have b := pow_pos_facts hL X2 hx' hz' ip' ic' h'
  exact exp_cl X2 a.2.2 b.2.2 hle (le_of_sgn a)

/-- What the integral power of a positive number returns. -/
theorem int_power_number (k : Kind) {w : W} (hk : k = .lin ∨ w = .w64) {a : T w} {x : ℝ} (n : BitVec 64) (hx : value k a = some x) (h0 : 0 < x) :
    ∃ (r : Fl) (v : ℚ) (s : T w) (y : ℝ), eTo L k w a = .ok r ∧ r.Is v ∧ x80.In v ∧ 0 < v ∧ (1 ≤ x → 1 ≤ v) ∧ (x ≤ 1 → v ≤ 1) ∧
      integerPowerOf L k w a n = .ok s ∧ value k s = some y ∧ eFrom L k w (fixExp r (L.pow x80 r (Fl.ofInt x80 n.toInt))) = .ok s := by
  have h8 := w.n_pos
  obtain ⟨f, v, e, i, iv, v0, v1, v2⟩ := eTo_pos hL k hx h0
  have io := Fl.Is.ofInt_in (int64_in n)
  have ht : a ≠ nar w.n := by rw [Ne, ← value_none (k := k), hx]; simp
  have a0 : a ≠ 0#w.n := by rintro rfl; rw [value_zero] at hx; exact h0.ne (Option.some.inj hx)
  have ng : isNeg a = false := by
    rw [isNeg_eq, Bool.eq_false_iff, Ne, ← isNeg_iff, not_lt]
    have := (value_order k (value_zero k) hx).mpr h0.le
    simpa using this
  have hcond : ¬ (a = NAR w.n ∨ (a = 0#w.n ∧ n.toInt ≤ 0)) := by
    rw [NAR_eq (by omega)]
    exact fun h => h.elim ht fun h => a0 h.1
  have ecall : integerPowerOf L k w a n = eFrom L k w (intPowFix a n.toInt (L.pow x80 f (Fl.ofInt x80 n.toInt))) := by
    cases k
    · obtain rfl := hk.resolve_left (by simp)
      change logTo L .ext _ a = _ at e
      show integerPower64 L a n = _
      unfold integerPower64
      rw [if_neg hcond, show toExtended L .w64 a = .ok f from e]; rfl
    · change linTo .ext _ a = _ at e
      show linIntegerPower L w a n = _
      unfold linIntegerPower
      rw [if_neg hcond, show linToExtended w a = .ok f from e]; rfl
  obtain ⟨n1, n2, n3⟩ := pow_pos_facts hL X2 i io iv (int64_in n) v0
  have fx : intPowFix a n.toInt (L.pow x80 f (Fl.ofInt x80 n.toInt)) = fixExp f (L.pow x80 f (Fl.ofInt x80 n.toInt)) := by
    generalize L.pow x80 f (Fl.ofInt x80 n.toInt) = X at n1 n2
    have nz : (a != 0#w.n) = true := by simpa using a0
    unfold intPowFix fixExp
    rw [ng, nz]
    cases X with
    | nan => exact absurd rfl n1
    | zero s => simp [Fl.isinf]
    | inf s => cases s <;> simp [Fl.isinf, Fl.lt, Fl.eq, Fl.sgn] at n2 ⊢
    | num q => simp [Fl.isinf]
  rw [fx] at ecall
  have rf := hT.pow_exponent _ X2 _ _ _ _ _ _ i io io iv (int64_in n) (int64_in n) v0 le_rfl
  have rf : Fl.le (L.pow x80 f (Fl.ofInt x80 n.toInt)) (L.pow x80 f (Fl.ofInt x80 n.toInt)) = true := (le_total 1 v).elim rf.1 rf.2
  obtain ⟨s, t, y, y', k1, -, k3, -⟩ := eFrom_cl hL hm k (w := w) (powl_cl hL i io iv (int64_in n) v0 i io iv (int64_in n) v0 rf)
  exact ⟨f, v, s, y, e, i, iv, v0, v1, v2, ecall.trans k1, k3, k1⟩

/-- C124: integral powers of positive numbers increase in the base for exponents that are at least 0 and decrease for exponents that are at most 0. -/
theorem int_power_base_monotone (k : Kind) (w : W) (hk : k = .lin ∨ w = .w64) (a a' : T w) (n : BitVec 64) (x x' : ℝ) (hx : value k a = some x)
    (hx' : value k a' = some x') (h0 : 0 < x) (h : x ≤ x') :
    ∃ (s t : T w) (y y' : ℝ), integerPowerOf L k w a n = .ok s ∧ integerPowerOf L k w a' n = .ok t ∧ value k s = some y ∧ value k t = some y' ∧
      (0 ≤ n.toInt → y ≤ y') ∧ (n.toInt ≤ 0 → y' ≤ y) := by
  obtain ⟨r, v, s, y, e, i, iv, p, -, -, es, hy, ks⟩ := int_power_number hL hm hT k hk n hx h0
  obtain ⟨r', v', t, y', e', i', iv', p', -, -, et, hy', kt⟩ := int_power_number hL hm hT k hk n hx' (h0.trans_le h)
  have io := Fl.Is.ofInt_in (int64_in n)
  have im := int64_in n
  obtain ⟨m1, m2⟩ := hT.pow_base _ X2 _ _ _ _ _ _ i i' io iv iv' im p (eTo_mono hL k hx hx' h e e' i i')
  refine ⟨s, t, y, y', es, et, hy, hy', fun hz => ?_, fun hz => ?_⟩
  · exact eFrom_cl_le hL hm k (powl_cl hL i io iv im p i' io iv' im p' (m1 (by exact_mod_cast hz))) ks kt hy hy'
  · exact eFrom_cl_le hL hm k (powl_cl hL i' io iv' im p' i io iv im p (m2 (by exact_mod_cast hz))) kt ks hy' hy

/-- C124: they increase in the exponent for bases that are at least 1 and decrease for positive bases that are at most 1. -/
theorem int_power_exponent_monotone (k : Kind) (w : W) (hk : k = .lin ∨ w = .w64) (a : T w) (n n' : BitVec 64) (x : ℝ) (hx : value k a = some x) (h0 : 0 < x)
    (h : n.toInt ≤ n'.toInt) :
    ∃ (s t : T w) (y y' : ℝ), integerPowerOf L k w a n = .ok s ∧ integerPowerOf L k w a n' = .ok t ∧ value k s = some y ∧ value k t = some y' ∧
      (1 ≤ x → y ≤ y') ∧ (x ≤ 1 → y' ≤ y) := by
  obtain ⟨r, v, s, y, e, i, iv, p, p1, p2, es, hy, ks⟩ := int_power_number hL hm hT k hk n hx h0
  obtain ⟨r', v', t, y', e', i', -, -, -, -, et, hy', kt⟩ := int_power_number hL hm hT k hk n' hx h0
  rw [e] at e'; cases e'
  have io := Fl.Is.ofInt_in (int64_in n)
  have io' := Fl.Is.ofInt_in (int64_in n')
  obtain ⟨m1, m2⟩ := hT.pow_exponent _ X2 _ _ _ _ _ _ i io io' iv (int64_in n) (int64_in n') p (by exact_mod_cast h)
  refine ⟨s, t, y, y', es, et, hy, hy', fun h1 => ?_, fun h1 => ?_⟩
  · exact eFrom_cl_le hL hm k (powl_cl hL i io iv (int64_in n) p i io' iv (int64_in n') p (m1 (p1 h1))) ks kt hy hy'
  · exact eFrom_cl_le hL hm k (powl_cl hL i io' iv (int64_in n') p i io iv (int64_in n) p (m2 (p2 h1))) kt ks hy' hy

omit hm hT in
/-- What the linear root of a positive number returns. -/
theorem lin_root_number {w : W} {a : T w} {x : ℝ} (n : BitVec 64) (n0 : n.toInt ≠ 0) (hx : value .lin a = some x) (h0 : 0 < x) :
    ∃ (r : Fl) (v : ℚ) (s : T w) (y : ℝ), eTo L .lin w a = .ok r ∧ r.Is v ∧ x80.In v ∧ 0 < v ∧ (1 ≤ x → 1 ≤ v) ∧ (x ≤ 1 → v ≤ 1) ∧
      linRoot L w a n = .ok s ∧ value .lin s = some y ∧ eFrom L .lin w (fixExp r (L.pow x80 r (Fl.div x80 (.num 1) (Fl.ofInt x80 n.toInt)))) = .ok s := by
  have h8 := w.n_pos
  obtain ⟨f, v, e, i, iv, v0, v1, v2⟩ := eTo_pos hL .lin hx h0
  obtain ⟨c, ec, c0, -, ic, -⟩ := root_exponent n0
  have ht : a ≠ nar w.n := by rw [Ne, ← value_none (k := .lin), hx]; simp
  have a0 : a ≠ 0#w.n := by rintro rfl; rw [value_zero] at hx; exact h0.ne (Option.some.inj hx)
  have sg : ¬ a.toInt < 0 := by
    rw [not_lt]
    have := (value_order .lin (value_zero .lin) hx).mpr h0.le
    simpa using this
  have ng : isNeg a = false := by rw [isNeg_eq, Bool.eq_false_iff, Ne, ← isNeg_iff]; exact sg
  have nz : (a != 0#w.n) = true := by simpa using a0
  obtain ⟨s, es, sn, -, -⟩ := lin_root_sign L hL.nans hL.powers hL.specials hL.powSigns w a n
  have sn : s ≠ nar w.n := by
    rw [Ne, sn]
    rintro (h | h | h | h)
    · exact ht h
    · exact n0 h
    · exact sg h.1
    · exact a0 h.1
  obtain ⟨y, hy⟩ := value_some (k := .lin) sn
  refine ⟨f, v, s, y, e, i, iv, v0, v1, v2, es, hy, ?_⟩
  obtain ⟨n1, n2, n3⟩ := pow_pos_facts hL X2 i (Fl.Is.num c0) iv ic v0
  rw [ec]
  have hz : n ≠ 0#64 := by rintro rfl; exact n0 rfl
  change linTo .ext _ a = _ at e
  unfold linRoot at es
  rw [ng, nz, show linToExtended w a = .ok f from e, ok_bind, ec] at es
  simp only [hz, Bool.false_eq_true, false_and, or_self, if_false, Bool.and_true, Bool.false_and] at es
  rw [← es]
  generalize L.pow x80 f (.num c) = X at n1 n2 es
  unfold fixExp
  cases X with
  | nan => exact absurd rfl n1
  | zero s => rfl
  | inf b =>
    exfalso
    have : eFrom L .lin w (.inf b) = .ok s := es
    rw [eFrom_bad .lin w rfl] at this
    exact sn (Except.ok.inj this).symm
  | num q => rfl

/-- C124: the linear root increases with the radicand for a positive index and decreases for a negative one. -/
theorem lin_root_monotone (w : W) (a a' : T w) (n : BitVec 64) (n0 : n.toInt ≠ 0) (x x' : ℝ) (hx : value .lin a = some x) (hx' : value .lin a' = some x')
    (h0 : 0 < x) (h : x ≤ x') :
    ∃ (s t : T w) (y y' : ℝ), linRoot L w a n = .ok s ∧ linRoot L w a' n = .ok t ∧ value .lin s = some y ∧ value .lin t = some y' ∧
      (0 < n.toInt → y ≤ y') ∧ (n.toInt < 0 → y' ≤ y) := by
  obtain ⟨r, v, s, y, e, i, iv, p, -, -, es, hy, ks⟩ := lin_root_number hL n n0 hx h0
  obtain ⟨r', v', t, y', e', i', iv', p', -, -, et, hy', kt⟩ := lin_root_number hL n n0 hx' (h0.trans_le h)
  obtain ⟨c, ec, c0, -, ic, cs, -⟩ := root_exponent n0
  rw [ec] at ks kt
  have jc := Fl.Is.num c0
  obtain ⟨m1, m2⟩ := hT.pow_base _ X2 _ _ _ _ _ _ i i' jc iv iv' ic p (eTo_mono hL .lin hx hx' h e e' i i')
  refine ⟨s, t, y, y', es, et, hy, hy', fun hz => ?_, fun hz => ?_⟩
  · have : 0 ≤ c := not_lt.mp fun h => absurd (cs.mp h) (by omega)
    exact eFrom_cl_le hL hm .lin (powl_cl hL i jc iv ic p i' jc iv' ic p' (m1 this)) ks kt hy hy'
  · exact eFrom_cl_le hL hm .lin (powl_cl hL i' jc iv' ic p' i jc iv ic p (m2 (cs.mpr hz).le)) kt ks hy' hy

/-- C124: between indices of the same sign the root of a number that is at least 1 decreases with the index, and that of a positive number that is
at most 1 increases. -/
theorem lin_root_index_monotone (w : W) (a : T w) (n n' : BitVec 64) (hn : 0 < n.toInt ∨ n'.toInt < 0) (x : ℝ) (hx : value .lin a = some x)
    (h0 : 0 < x) (h : n.toInt ≤ n'.toInt) :
    ∃ (s t : T w) (y y' : ℝ), linRoot L w a n = .ok s ∧ linRoot L w a n' = .ok t ∧ value .lin s = some y ∧ value .lin t = some y' ∧
      (1 ≤ x → y' ≤ y) ∧ (x ≤ 1 → y ≤ y') := by
  have n0 : n.toInt ≠ 0 := by omega
  have n0' : n'.toInt ≠ 0 := by omega
  obtain ⟨r, v, s, y, e, i, iv, p, p1, p2, es, hy, ks⟩ := lin_root_number hL n n0 hx h0
  obtain ⟨r', v', t, y', e', i', -, -, -, -, et, hy', kt⟩ := lin_root_number hL n' n0' hx h0
  rw [e] at e'; cases e'
  obtain ⟨c, ec, c0, cl, ic, -⟩ := root_exponent n0
  obtain ⟨d, ed, d0, -, id, -⟩ := root_exponent n0'
  have eq : ∀ {n : BitVec 64} {c : ℚ}, n.toInt ≠ 0 → c ≠ 0 → x80.In c → Fl.div x80 (.num 1) (Fl.ofInt x80 n.toInt) = .num c → c = x80.rq (1 / (n.toInt : ℚ)) := by
    intro n c n0 c0 ic ec
    have nq : ((n.toInt : ℤ) : ℚ) ≠ 0 := by exact_mod_cast n0
    have ha : |1 / ((n.toInt : ℤ) : ℚ)| ≤ 1 := by
      have : (1 : ℚ) ≤ |((n.toInt : ℤ) : ℚ)| := by exact_mod_cast Int.one_le_abs n0
      rw [abs_div, abs_one]; exact div_le_one_of_le₀ this (abs_nonneg _)
    have u1 := x80.abs_rq_le (by decide) (⟨1, 0, by norm_num, by decide, by decide⟩ : x80.Rep (1 : ℚ)) ha
    have hd := Fl.Is.div (F := x80) (Fl.Is.num one_ne_zero) (Fl.Is.ofInt_in (int64_in n)) nq (lt_of_le_of_lt u1 (by decide +kernel))
    rw [ec] at hd
    exact (Fl.Is.num c0).unique hd
  have dc : d ≤ c := by
    rw [eq n0 c0 ic ec, eq n0' d0 id ed]
    refine x80.rq_mono (by decide) ?_
    have hq : ((n.toInt : ℤ) : ℚ) ≤ n'.toInt := by exact_mod_cast h
    rcases hn with hn | hn
    · exact one_div_le_one_div_of_le (by exact_mod_cast hn) hq
    · exact one_div_le_one_div_of_neg_of_le (by exact_mod_cast hn) hq
  rw [ec] at ks
  rw [ed] at kt
  have jc := Fl.Is.num c0
  have jd := Fl.Is.num d0
  obtain ⟨m1, m2⟩ := hT.pow_exponent _ X2 _ _ _ _ _ _ i jd jc iv id ic p dc
  refine ⟨s, t, y, y', es, et, hy, hy', fun h1 => ?_, fun h1 => ?_⟩
  · exact eFrom_cl_le hL hm .lin (powl_cl hL i jd iv id p i jc iv ic p (m1 (p1 h1))) kt ks hy' hy
  · exact eFrom_cl_le hL hm .lin (powl_cl hL i jc iv ic p i jd iv id p (m2 (p2 h1))) ks kt hy hy'

end

example : ∃ (s t : T .w16) (y y' : ℝ), integerPowerOf ideal .lin .w16 (0x4400#16) (-3#64) = .ok s ∧ integerPowerOf ideal .lin .w16 (0x4800#16) (-3#64) = .ok t ∧
    value .lin s = some y ∧ value .lin t = some y' ∧ y' ≤ y := by
  obtain ⟨h1, h2, -, -⟩ := mono_two_values
  obtain ⟨s, t, y, y', e1, e2, e3, e4, -, e5⟩ := int_power_base_monotone ideal_conforming ideal_monotone.log ideal_monotone_two .lin .w16 (Or.inl rfl) _ _ (-3#64) _ _ h1 h2
    (by norm_num) (by norm_num)
  exact ⟨s, t, y, y', e1, e2, e3, e4, e5 (by decide)⟩

example : ∃ (s t : T .w16) (y y' : ℝ), integerPowerOf ideal .lin .w16 (0x4400#16) (-3#64) = .ok s ∧ integerPowerOf ideal .lin .w16 (0x4400#16) 7#64 = .ok t ∧
    value .lin s = some y ∧ value .lin t = some y' ∧ y ≤ y' := by
  obtain ⟨s, t, y, y', e1, e2, e3, e4, e5, -⟩ := int_power_exponent_monotone ideal_conforming ideal_monotone.log ideal_monotone_two .lin .w16 (Or.inl rfl) _ (-3#64) 7#64 _
    mono_two_values.1 (by norm_num) (by decide)
  exact ⟨s, t, y, y', e1, e2, e3, e4, e5 (by norm_num)⟩

example : ∃ (s t : T .w16) (y y' : ℝ), linRoot ideal .w16 (0x4400#16) 3#64 = .ok s ∧ linRoot ideal .w16 (0x4800#16) 3#64 = .ok t ∧
    value .lin s = some y ∧ value .lin t = some y' ∧ y ≤ y' := by
  obtain ⟨h1, h2, -, -⟩ := mono_two_values
  obtain ⟨s, t, y, y', e1, e2, e3, e4, e5, -⟩ := lin_root_monotone ideal_conforming ideal_monotone.log ideal_monotone_two .w16 _ _ 3#64 (by decide) _ _ h1 h2
    (by norm_num) (by norm_num)
  exact ⟨s, t, y, y', e1, e2, e3, e4, e5 (by decide)⟩

example : ∃ (s t : T .w16) (y y' : ℝ), linRoot ideal .w16 (0x4400#16) (-3#64) = .ok s ∧ linRoot ideal .w16 (0x4400#16) (-2#64) = .ok t ∧
    value .lin s = some y ∧ value .lin t = some y' ∧ y' ≤ y := by
  obtain ⟨s, t, y, y', e1, e2, e3, e4, e5, -⟩ := lin_root_index_monotone ideal_conforming ideal_monotone.log ideal_monotone_two .w16 _ (-3#64) (-2#64) (Or.inr (by decide)) _
    mono_two_values.1 (by norm_num) (by decide)
  exact ⟨s, t, y, y', e1, e2, e3, e4, e5 (by norm_num)⟩

end Takum
