import Verif.Lemmas.BitOps
import Mathlib.Analysis.SpecialFunctions.Log.Basic

/-! # Lemmas for multiplication, division, square root, integer power and root -/

namespace Takum
open Spec

/-- Rounding a multiple of `2^e` gives a multiple of `2^e`. -/
theorem Fmt.rq_multiple (F : Fmt) {x : ℚ} {e : ℤ} {j : ℤ} (h : x = j * (2 : ℚ) ^ e) :
    ∃ k : ℤ, F.rq x = k * (2 : ℚ) ^ e := by
  rcases le_total (F.qexp x) e with hle | hle
  · obtain ⟨d, hd⟩ := Int.eq_ofNat_of_zero_le (sub_nonneg.mpr hle)
    refine ⟨j, ?_⟩
    rw [← h]
    apply F.rq_of_multiple (m := j * 2 ^ d)
    conv_lhs => rw [h, show e = F.qexp x + d by omega]
    rw [zpow_add₀ (by norm_num), zpow_natCast]; push_cast; ring
  · obtain ⟨d, hd⟩ := Int.eq_ofNat_of_zero_le (sub_nonneg.mpr hle)
    refine ⟨rne (x / (2 : ℚ) ^ F.qexp x) * 2 ^ d, ?_⟩
    unfold Fmt.rq
    conv_lhs => rw [show F.qexp x = e + d by omega]
    rw [zpow_add₀ (by norm_num) e, zpow_natCast]; push_cast
    rw [show F.qexp x = e + d by omega, zpow_add₀ (by norm_num) e, zpow_natCast]; ring

theorem OnGrid.rq {w : W} {F : Fmt} {x : ℚ} (h : OnGrid w x) : OnGrid w (F.rq x) := by
  obtain ⟨j, hj⟩ := h
  have hx : x = j * (2 : ℚ) ^ (-(w.grid : ℤ)) := by
    rw [← hj, zpow_neg, zpow_natCast]; field_simp
  obtain ⟨k, hk⟩ := F.rq_multiple hx
  exact ⟨k, by rw [hk, zpow_neg, zpow_natCast]; field_simp⟩

/-- What every value of the type computed in satisfies. -/
theorem lF_rep_encF {w : W} {q : ℚ} (h : w.lF.Rep q) : w.encF.Rep q := by
  cases w
  · exact h.mono (by decide) (by decide)
  · exact h.mono (by decide) (by decide)
  · exact h.mono (by decide) (by decide)
  · exact h.mono (by decide) (by decide)

theorem W.lF_prec (w : W) : 24 ≤ w.lF.prec ∧ w.lF.emin ≤ -149 ∧ 128 ≤ w.lF.emax := by
  cases w <;> decide

/-- No overflow below `2^100`. -/
theorem rq_small (w : W) {q : ℚ} (h : |q| ≤ 2 ^ 100) : |w.lF.rq q| < (2 : ℚ) ^ w.lF.emax := by
  obtain ⟨h1, h2, h3⟩ := w.lF_prec
  have hr : w.lF.Rep (2 ^ 100) := by
    have := Fmt.Rep.zpow (F := w.lF) (by omega) (k := 100) (by omega)
    exact_mod_cast this
  refine lt_of_le_of_lt (w.lF.abs_rq_le (by omega) hr h) ?_
  refine lt_of_lt_of_le ?_ (zpow_big h3)
  norm_num

theorem abs_ell_lt {w : W} (t : T w) : |ell t| < 256 := by
  rw [ell_abs]; exact abs_cpm_lt_256 (by have := w.n_pos; omega) t

/-- The sign computed by multiplication and division. -/
theorem sign_ne {w : W} {a b : T w} (ha : Regular a) (hb : Regular b) :
    (isPos a != isPos b) = (a.msb ^^ b.msb) := by
  rw [isPos_eq, isPos_eq]
  have h1 : (a != 0#w.n) = true := by simpa using ha.1
  have h2 : (b != 0#w.n) = true := by simpa using hb.1
  rw [h1, h2]; cases a.msb <;> cases b.msb <;> rfl

theorem sg_xor (s s' : Bool) : sg (s ^^ s') = sg s * sg s' := by cases s <;> cases s' <;> simp [sg]

theorem multiplication_regular {w : W} {a b : T w} (ha : Regular a) (hb : Regular b) :
    ∃ l : Fl, l.Is (w.lF.rq (ell a + ell b)) ∧ multiplication w a b = fromSAndL w (a.msb ^^ b.msb) l := by
  obtain ⟨x, hx, ix⟩ := toL_regular w a ha
  obtain ⟨y, hy, iy⟩ := toL_regular w b hb
  refine ⟨Fl.add w.lF x y, ?_, ?_⟩
  · apply ix.add iy
    apply rq_small
    have h1 := abs_ell_lt a
    have h2 := abs_ell_lt b
    have := abs_add_le (ell a) (ell b)
    have : (512 : ℚ) ≤ 2 ^ 100 := by norm_num
    linarith
  · unfold multiplication
    rw [hx, ok_bind, hy, ok_bind, sign_ne ha hb]

theorem ell_multiple {w : W} (t : T w) : ∃ j : ℤ, ell t = j * (2 : ℚ) ^ (-((len w.n - 5 : ℕ) : ℤ)) := by
  have h8 := w.n_pos
  have hpr := p_add_r (by omega) t
  have : ∃ j : ℤ, (c t : ℚ) + m t = j * (2 : ℚ) ^ (-((len w.n - 5 : ℕ) : ℤ)) := by
    refine ⟨c t * 2 ^ (len w.n - 5) + M t * 2 ^ r t, ?_⟩
    unfold m
    rw [zpow_neg, zpow_natCast, ← hpr]; push_cast; field_simp; rw [pow_add]; ring
  obtain ⟨j, hj⟩ := this
  unfold ell
  rw [hj]
  rcases neg_one_pow_eq_or ℚ (S t) with e | e <;> rw [e]
  · exact ⟨j, by ring⟩
  · exact ⟨-j, by push_cast; ring⟩

/-- For 8, 16 and 32 bits a sum of two logarithmic values is exact; for 64 bits if it is small. -/
theorem ell_add_rep {w : W} (a b : T w) (h : w ≠ .w64 ∨ |ell a + ell b| < 32) : w.lF.Rep (ell a + ell b) := by
  have h8 := w.n_pos
  obtain ⟨i, hi⟩ := ell_multiple a
  obtain ⟨j, hj⟩ := ell_multiple b
  have h1 := abs_ell_lt a
  have h2 := abs_ell_lt b
  have h3 := abs_add_le (ell a) (ell b)
  refine Fmt.Rep.of_lt (i + j) (-((len w.n - 5 : ℕ) : ℤ)) ?_ ?_ ?_
  · rw [hi, hj]; push_cast; ring
  · cases w <;> decide
  · rcases h with h | h
    · have : (512 : ℚ) ≤ (2 : ℚ) ^ (-((len w.n - 5 : ℕ) : ℤ) + w.lF.prec) := by
        rw [show (512 : ℚ) = (2 : ℚ) ^ (9 : ℤ) by norm_num]
        apply zpow_le_zpow_right₀ (by norm_num)
        cases w
        · decide
        · decide
        · decide
        · exact absurd rfl h
      linarith
    · have : (32 : ℚ) ≤ (2 : ℚ) ^ (-((len w.n - 5 : ℕ) : ℤ) + w.lF.prec) := by
        rw [show (32 : ℚ) = (2 : ℚ) ^ (5 : ℤ) by norm_num]
        apply zpow_le_zpow_right₀ (by norm_num)
        cases w <;> decide
      linarith

theorem lF_rq_rep (w : W) (q : ℚ) : w.lF.Rep (w.lF.rq q) :=
  Fmt.rq_rep _ (by have := w.lF_prec; omega) q

theorem lF_mono (w : W) {x y : ℚ} (h : x ≤ y) : w.lF.rq x ≤ w.lF.rq y :=
  Fmt.rq_mono _ (by have := w.lF_prec; omega) h

/-- Comparison of the encoder's result with a takum: faithfulness. -/
theorem enc_faithful {w : W} (s : Bool) {l : Fl} {q : ℚ} (hl : l.Is q) (hq : w.encF.Rep q) {v t : T w}
    (hv : fromSAndL w s l = .ok v) (ht : Regular t) (hs : t.msb = s) :
    (sg s * ell t ≤ sg s * q → t.toInt ≤ v.toInt) ∧ (sg s * q ≤ sg s * ell t → v.toInt ≤ t.toInt) := by
  obtain ⟨x, -, hx⟩ := toL_regular w t ht
  have he := enc_of_ell ht hx
  have hr : w.encF.Rep (ell t) := lF_rep_encF (ell_in w t).1
  rw [hs] at he
  constructor
  · intro h
    obtain ⟨t1, t2, e1, e2, hle⟩ := enc_mono s hx hl hr hq h
    rw [he] at e1; rw [hv] at e2
    rw [Except.ok.inj e1, Except.ok.inj e2]; exact hle
  · intro h
    obtain ⟨t1, t2, e1, e2, hle⟩ := enc_mono s hl hx hq hr h
    rw [he] at e2; rw [hv] at e1
    rw [Except.ok.inj e1, Except.ok.inj e2]; exact hle

theorem enc_congr {w : W} (s : Bool) {l l' : Fl} {q : ℚ} (hl : l.Is q) (hl' : l'.Is q) (hq : w.encF.Rep q) :
    fromSAndL w s l = fromSAndL w s l' := by
  rw [fromSAndL_spec w s hl hq, fromSAndL_spec w s hl' hq]

/-- Faithful rounding on the logarithmic scale: no takum lies strictly between `x` and `v`. -/
theorem faithful_rq {w : W} (s : Bool) {l : Fl} {x : ℚ} (hl : l.Is (w.lF.rq x)) {v t : T w}
    (hv : fromSAndL w s l = .ok v) (ht : Regular t) (hs : t.msb = s) :
    (sg s * ell t ≤ sg s * x → t.toInt ≤ v.toInt) ∧ (sg s * x ≤ sg s * ell t → v.toInt ≤ t.toInt) := by
  have hr : w.lF.rq (ell t) = ell t := w.lF.rq_of_rep (ell_in w t).1
  have hf := enc_faithful s hl (lF_rep_encF (lF_rq_rep w x)) hv ht hs
  have m1 : ∀ {x y : ℚ}, sg s * x ≤ sg s * y → sg s * w.lF.rq x ≤ sg s * w.lF.rq y := by
    intro x y h
    cases s
    · simp only [sg, Bool.false_eq_true, if_false, one_mul] at h ⊢; exact lF_mono w h
    · simp only [sg, if_true, neg_mul, one_mul, neg_le_neg_iff] at h ⊢; exact lF_mono w h
  constructor
  · intro h; apply hf.1; rw [← hr]; exact m1 h
  · intro h; apply hf.2
    have := m1 h
    rwa [hr] at this

/-! ## Special arguments -/

theorem toL_cases (w : W) (t : T w) :
    (t = 0#w.n ∧ toL w t = .ok (.inf true)) ∨ (t = nar w.n ∧ toL w t = .ok .nan) ∨
      (Regular t ∧ ∃ x, toL w t = .ok x ∧ x.Is (ell t)) := by
  by_cases h0 : t = 0#w.n
  · left; exact ⟨h0, by rw [h0]; exact toL_zero w⟩
  by_cases h1 : t = nar w.n
  · right; left; exact ⟨h1, by rw [h1]; exact toL_nar w⟩
  · right; right; exact ⟨⟨h0, h1⟩, toL_regular w t ⟨h0, h1⟩⟩

theorem Fl.add_comm (F : Fmt) (x y : Fl) : Fl.add F x y = Fl.add F y x := by
  cases x <;> cases y <;> simp [Fl.add, Fl.toQ, Fl.sgn, _root_.add_comm, eq_comm, Bool.and_comm] <;>
    rename_i a b <;> cases a <;> cases b <;> rfl

theorem Fl.Is.add_inf {F : Fmt} {x : Fl} {q : ℚ} (h : x.Is q) (s : Bool) : Fl.add F x (.inf s) = .inf s := by
  rcases h.cases with ⟨_, h⟩ | ⟨_, z, h⟩ <;> rw [h] <;> rfl

theorem Fl.add_nan {F : Fmt} (x : Fl) : Fl.add F x .nan = .nan := by cases x <;> rfl

theorem multiplication_comm' (w : W) (a b : T w) : multiplication w a b = multiplication w b a := by
  unfold multiplication
  rcases toL_cases w a with ⟨_, ha⟩ | ⟨_, ha⟩ | ⟨_, x, ha, _⟩ <;>
  rcases toL_cases w b with ⟨_, hb⟩ | ⟨_, hb⟩ | ⟨_, y, hb, _⟩ <;>
  · rw [ha, hb]; simp only [ok_bind]; rw [bne_comm, Fl.add_comm]

theorem multiplication_nar (w : W) (a : T w) : multiplication w a (nar w.n) = .ok (nar w.n) := by
  unfold multiplication
  rw [toL_nar]
  rcases toL_cases w a with ⟨_, ha⟩ | ⟨_, ha⟩ | ⟨_, x, ha, _⟩ <;>
  · rw [ha]; simp only [ok_bind]; rw [Fl.add_nan]; exact enc_nan w _

theorem multiplication_zero {w : W} {a : T w} (h : a ≠ nar w.n) : multiplication w a 0#w.n = .ok 0#w.n := by
  unfold multiplication
  rw [toL_zero]
  rcases toL_cases w a with ⟨_, ha⟩ | ⟨h', _⟩ | ⟨_, x, ha, hx⟩
  · rw [ha]; simp only [ok_bind]; exact enc_inf_neg w _
  · exact absurd h' h
  · rw [ha]; simp only [ok_bind]; rw [hx.add_inf]; exact enc_inf_neg w _

theorem multiplication_ok {w : W} {a b : T w} (ha : Regular a) (hb : Regular b) :
    ∃ v, multiplication w a b = .ok v ∧ Regular v ∧ v.msb = (a.msb ^^ b.msb) := by
  obtain ⟨l, hl, e⟩ := multiplication_regular ha hb
  rw [e]
  exact enc_regular _ hl (lF_rep_encF (lF_rq_rep w _))

/-- Changing the sign of one factor negates the product. -/
theorem multiplication_neg {w : W} {a b : T w} (ha : Regular a) (hb : Regular b) :
    ∃ v, multiplication w a b = .ok v ∧ multiplication w (-a) b = .ok (-v) := by
  have h8 := w.n_pos
  obtain ⟨n1, n2, n3, n4⟩ := regular_neg (by omega) ha
  obtain ⟨l, hl, e⟩ := multiplication_regular ha hb
  obtain ⟨l', hl', e'⟩ := multiplication_regular n3 hb
  rw [n4] at hl'
  have hg : OnGrid w (w.lF.rq (ell a + ell b)) :=
    ((ell_grid a).add (ell_grid b)).rq
  have hR := lF_rep_encF (lF_rq_rep w (ell a + ell b))
  obtain ⟨v, h1, h2⟩ := enc_neg_grid (a.msb ^^ b.msb) hl hR hg
  refine ⟨v, by rw [e, h1], ?_⟩
  rw [e', n1, ← enc_congr _ hl hl' hR, ← h2]
  congr 1; cases a.msb <;> cases b.msb <;> rfl

/-! ## Division -/

theorem Fl.Is.sub_nan {F : Fmt} (x : Fl) : Fl.sub F x .nan = .nan := by cases x <;> rfl

/-- Division is multiplication by the inverse. -/
theorem division_eq (w : W) (a b : T w) : division w a b = multiplication w a (inversion w b) := by
  rcases toL_cases w b with ⟨h, hb⟩ | ⟨h, hb⟩ | ⟨h, y, hb, iy⟩
  · rw [h, inversion_zero, multiplication_nar]
    unfold division
    rw [toL_zero]
    rcases toL_cases w a with ⟨_, ha⟩ | ⟨_, ha⟩ | ⟨_, x, ha, hx⟩
    · rw [ha]; simp only [ok_bind]; exact enc_nan w _
    · rw [ha]; simp only [ok_bind]; exact enc_nan w _
    · rw [ha]; simp only [ok_bind, Fl.sub, Fl.neg]; rw [hx.add_inf]; exact enc_inf_pos w _
  · rw [h, inversion_nar, multiplication_nar]
    unfold division
    rw [toL_nar]
    rcases toL_cases w a with ⟨_, ha⟩ | ⟨_, ha⟩ | ⟨_, x, ha, hx⟩ <;>
    · rw [ha]; simp only [ok_bind]; rw [Fl.Is.sub_nan]; exact enc_nan w _
  · obtain ⟨i1, i2, i3, i4⟩ := inversion_facts h
    obtain ⟨z, hz, iz⟩ := toL_regular w (inversion w b) i3
    rw [i4] at iz
    have hs : ∀ a : T w, (isPos a != isPos b) = (isPos a != isPos (inversion w b)) := by
      intro a
      have h1 : (b != 0#w.n) = true := by simpa using h.1
      have h2 : (inversion w b != 0#w.n) = true := by simpa using i3.1
      rw [isPos_eq b, isPos_eq (inversion w b), i1, h1, h2]
    unfold division multiplication
    rw [hb, hz, hs]
    rcases toL_cases w a with ⟨_, ha⟩ | ⟨_, ha⟩ | ⟨_, x, ha, hx⟩
    · rw [ha]; simp only [ok_bind, Fl.sub]
      rw [Fl.add_comm, iy.neg.add_inf, Fl.add_comm, iz.add_inf]
    · rw [ha]; simp only [ok_bind, Fl.sub]; rfl
    · rw [ha]; simp only [ok_bind, Fl.sub]
      have hlt : |w.lF.rq (ell a + -ell b)| < (2 : ℚ) ^ w.lF.emax := by
        apply rq_small
        have h1 := abs_ell_lt a
        have h2 := abs_ell_lt b
        have := abs_add_le (ell a) (-ell b)
        rw [abs_neg] at this
        have : (512 : ℚ) ≤ 2 ^ 100 := by norm_num
        linarith
      exact enc_congr _ (hx.add iy.neg hlt) (hx.add iz hlt) (lF_rep_encF (lF_rq_rep w _))

/-! ## From the logarithmic scale to numbers -/

theorem log_logG (x : ℚ) : 2 * Real.log (logG x) = x := by
  rw [logG_exp, Real.log_exp]; ring

theorem logVal_regular {n : ℕ} (hn : 1 ≤ n) {t : BitVec n} (h : Regular t) :
    logVal t = some ((sg t.msb : ℚ) * logG (ell t)) := by
  rw [logVal_val hn h.2]
  unfold val sg
  rw [if_neg h.1]
  cases t.msb <;> simp

theorem nearestLog_of_ell {n : ℕ} {s : Bool} {q : ℚ} {t : BitVec n} (h : NearestEll s q t) :
    NearestLog ((sg s : ℚ) * logG q) t := by
  obtain ⟨h1, h2, h3⟩ := h
  have hp := logG_pos q
  have e : logScale (((sg s : ℚ) : ℝ) * logG q) = q := by
    unfold logScale; rw [abs_mul, abs_of_pos hp]
    have : |((sg s : ℚ) : ℝ)| = 1 := by cases s <;> simp [sg]
    rw [this, one_mul, log_logG]
  refine ⟨h1, ?_, ?_⟩
  · rw [h2]; cases s <;> simp [sg, hp, hp.le]
  · intro t' r' m'
    rw [e]
    rcases h3 t' r' (by rw [m', h2]) with h | ⟨h, h'⟩
    · left; exact_mod_cast h
    · right; exact ⟨by exact_mod_cast h, h'⟩

theorem faithfulLog_of {n : ℕ} (hn : 1 ≤ n) {s : Bool} {q : ℚ} {v : BitVec n} (hv : Regular v) (hs : v.msb = s)
    (h : ∀ t : BitVec n, Regular t → t.msb = s →
      (sg s * ell t ≤ sg s * q → t.toInt ≤ v.toInt) ∧ (sg s * q ≤ sg s * ell t → v.toInt ≤ t.toInt)) :
    FaithfulLog ((sg s : ℚ) * logG q) v := by
  have hp := logG_pos q
  refine ⟨hv, ?_, ?_⟩
  · rw [hs]; cases s <;> simp [sg, hp, hp.le]
  intro t x ht hx
  rw [logVal_regular hn ht] at hx
  have hx := Option.some.inj hx
  have pt := logG_pos (ell t)
  have a1 := toInt_pos_iff hn ht
  have a2 := toInt_neg_iff hn ht
  have b1 := toInt_pos_iff hn hv
  have b2 := toInt_neg_iff hn hv
  rw [hs] at b1 b2
  subst hx
  cases hm : t.msb <;> cases s
  · obtain ⟨g1, g2⟩ := h t ht hm
    simp only [sg, Bool.false_eq_true, if_false, one_mul, Rat.cast_one] at g1 g2 ⊢
    rw [logG_mono.le_iff_le, logG_mono.le_iff_le]
    exact ⟨g1, g2⟩
  · have := a1.mpr hm
    have := b2.mpr rfl
    simp only [sg, Bool.false_eq_true, if_false, if_true, one_mul, Rat.cast_one, Rat.cast_neg, neg_mul]
    exact ⟨fun h => by linarith, fun _ => by omega⟩
  · have := a2.mpr hm
    have := b1.mpr rfl
    simp only [sg, Bool.false_eq_true, if_false, if_true, one_mul, Rat.cast_one, Rat.cast_neg, neg_mul]
    exact ⟨fun _ => by omega, fun h => by linarith⟩
  · obtain ⟨g1, g2⟩ := h t ht hm
    simp only [sg, if_true, one_mul, Rat.cast_one, Rat.cast_neg, neg_mul, neg_le_neg_iff] at g1 g2 ⊢
    rw [logG_mono.le_iff_le, logG_mono.le_iff_le]
    exact ⟨g1, g2⟩

theorem logG_add (x y : ℚ) : logG (x + y) = logG x * logG y := by
  rw [logG_exp, logG_exp, logG_exp, ← Real.exp_add]; congr 1; push_cast; ring

/-- The encoder applied to a rounded number of the type computed in rounds faithfully. -/
theorem enc_faithfulLog {w : W} (s : Bool) {l : Fl} {x : ℚ} (hl : l.Is (w.lF.rq x)) :
    ∃ v : T w, fromSAndL w s l = .ok v ∧ FaithfulLog ((sg s : ℚ) * logG x) v := by
  have h8 := w.n_pos
  obtain ⟨v, e, r, hs⟩ := enc_regular (w := w) s hl (lF_rep_encF (lF_rq_rep w _))
  exact ⟨v, e, faithfulLog_of (by omega) r hs fun t ht hs' => faithful_rq s hl e ht hs'⟩

/-! ## Square root -/

theorem ell_half_rep {w : W} (t : T w) : w.lF.Rep (ell t / 2) := by
  have h8 := w.n_pos
  obtain ⟨p1, p2, p3, p4, p5⟩ := w.lF_facts
  have hl : (len w.n - 5 : ℕ) ≤ 148 := by cases w <;> decide
  obtain ⟨j, e, h, hj, he⟩ := ell_rep (F := { w.lF with emin := w.lF.emin + 1 }) (by omega) t p4 (by simp only; omega)
  simp only at hj he
  have hc : w.lF.Rep (((c t : ℚ) + m t) / 2) :=
    ⟨j, e - 1, by rw [h, zpow_sub₀ (by norm_num)]; ring, hj, by omega⟩
  rw [ell_sg (by omega), ← cpm_eq (by omega)]
  cases t.msb
  · simpa [sg] using hc
  · have := hc.neg
    simp only [sg, if_true, neg_mul, one_mul, neg_div]; exact this

theorem Fl.Is.half {w : W} (t : T w) {x : Fl} (hx : x.Is (ell t)) : (Fl.ldexp w.lF x (-1)).Is (ell t / 2) := by
  have hl : |w.lF.rq (ell t * (2 : ℚ) ^ (-1 : ℤ))| < (2 : ℚ) ^ w.lF.emax := by
    apply rq_small
    have := abs_ell_lt t
    rw [zpow_neg_one, abs_mul]
    have : (256 : ℚ) * |2⁻¹| ≤ 2 ^ 100 := by norm_num [abs_of_pos]
    nlinarith [abs_nonneg (ell t), abs_pos.mpr (show (2 : ℚ)⁻¹ ≠ 0 by norm_num)]
  have := hx.ldexp hl
  rwa [zpow_neg_one, ← div_eq_mul_inv, w.lF.rq_of_rep (ell_half_rep t)] at this

theorem OnGrid.half_ell {w : W} (t : T w) : OnGrid w (ell t / 2) := by
  have h8 := w.n_pos
  have hc : OnGrid w (((c t : ℚ) + m t) / 2) := by
    have hp : p t + 1 ≤ w.grid := by
      have : p t ≤ len w.n - 5 := by unfold p; omega
      have h2 : len w.n - 5 + 1 ≤ w.grid := by cases w <;> decide
      omega
    refine OnGrid.of_le hp (j := c t * 2 ^ p t + M t) ?_
    unfold m; rw [pow_succ]; push_cast; field_simp
  rw [ell_sg (by omega), ← cpm_eq (by omega), mul_div_assoc]
  exact hc.sg _

theorem squareRoot_regular {w : W} {t : T w} (h : Regular t) (hs : t.msb = false) :
    ∃ l : Fl, l.Is (ell t / 2) ∧ squareRoot w t = fromSAndL w false l := by
  obtain ⟨x, hx, ix⟩ := toL_regular w t h
  refine ⟨_, ix.half t, ?_⟩
  unfold squareRoot
  rw [isNeg_eq, hs, hx, ok_bind]; rfl

/-! ## Integer power and root -/

theorem ofInt_is (w : W) (n : BitVec 64) :
    (Fl.ofInt w.lF n.toInt).Is (w.lF.rq (n.toInt : ℚ)) ∧ |w.lF.rq (n.toInt : ℚ)| ≤ 2 ^ 63 ∧
      (1 ≤ n.toInt → 1 ≤ w.lF.rq (n.toInt : ℚ)) ∧ (n.toInt ≤ -1 → w.lF.rq (n.toInt : ℚ) ≤ -1) := by
  obtain ⟨h1, h2, h3⟩ := w.lF_prec
  have r1 : w.lF.Rep 1 := by
    have := Fmt.Rep.zpow (F := w.lF) (by omega) (k := 0) (by omega)
    simpa using this
  have r63 : w.lF.Rep (2 ^ 63) := by
    have := Fmt.Rep.zpow (F := w.lF) (by omega) (k := 63) (by omega)
    exact_mod_cast this
  have hb : |(n.toInt : ℚ)| ≤ 2 ^ 63 := by
    have a := n.toInt_lt
    have b := n.le_toInt
    rw [abs_le]
    constructor
    · have : -(2 : ℤ) ^ 63 ≤ n.toInt := by simpa using b
      exact_mod_cast this
    · have : n.toInt ≤ (2 : ℤ) ^ 63 := by simpa using a.le
      exact_mod_cast this
  refine ⟨Fl.Is.ofInt (rq_small w (hb.trans (by norm_num))), w.lF.abs_rq_le (by omega) r63 hb, ?_, ?_⟩
  · intro h; exact w.lF.le_rq (by omega) r1 (by exact_mod_cast h)
  · intro h; exact w.lF.rq_le (by omega) r1.neg (by exact_mod_cast h)

theorem integerPowerL_regular {w : W} {t : T w} (h : Regular t) (n : BitVec 64) :
    ∃ l : Fl, l.Is (w.lF.rq (ell t * w.lF.rq (n.toInt : ℚ))) ∧
      integerPowerL w t n = fromSAndL w (t.msb && odd n.toInt) l := by
  obtain ⟨x, hx, ix⟩ := toL_regular w t h
  obtain ⟨i1, i2, -, -⟩ := ofInt_is w n
  refine ⟨_, ix.mul i1 ?_, ?_⟩
  · apply rq_small
    have := abs_ell_lt t
    rw [abs_mul]
    calc |ell t| * |w.lF.rq (n.toInt : ℚ)| ≤ 256 * 2 ^ 63 := by gcongr
      _ ≤ 2 ^ 100 := by norm_num
  · unfold integerPowerL
    rw [if_neg (fun hh => h.1 hh.1), hx, ok_bind, isNeg_eq]

theorem odd_iff (n : ℤ) : odd n = true ↔ n % 2 = 1 := by
  unfold odd
  rw [bne_iff_ne, ne_eq, ← Int.dvd_iff_tmod_eq_zero]
  omega

theorem root_regular {w : W} {t : T w} (h : Regular t) {n : BitVec 64} (hn : n ≠ 0#64)
    (ho : t.msb = true → n.toInt % 2 = 1) :
    ∃ l : Fl, l.Is (w.lF.rq (ell t / w.lF.rq (n.toInt : ℚ))) ∧ root w t n = fromSAndL w t.msb l := by
  obtain ⟨x, hx, ix⟩ := toL_regular w t h
  obtain ⟨i1, i2, i3, i4⟩ := ofInt_is w n
  have hne : n.toInt ≠ 0 := by
    intro e; apply hn
    apply BitVec.eq_of_toInt_eq; rw [e]; rfl
  have habs : 1 ≤ |w.lF.rq (n.toInt : ℚ)| := by
    rcases lt_or_gt_of_ne hne with h | h
    · have := i4 (by omega)
      rw [abs_of_neg (by linarith)]; linarith
    · have := i3 (by omega)
      rw [abs_of_pos (by linarith)]; exact this
  refine ⟨_, ix.div i1 ?_ ?_, ?_⟩
  · intro h0; rw [h0] at habs; norm_num at habs
  · apply rq_small
    have := abs_ell_lt t
    rw [abs_div, div_le_iff₀ (by linarith)]
    calc |ell t| ≤ 2 ^ 100 * 1 := by linarith [show (256 : ℚ) ≤ 2 ^ 100 * 1 by norm_num]
      _ ≤ 2 ^ 100 * |w.lF.rq (n.toInt : ℚ)| := by gcongr
  · unfold root
    rw [if_neg, hx, ok_bind, isNeg_eq]
    rintro (h' | ⟨h1, h2⟩ | ⟨h1, h2⟩)
    · exact hn h'
    · rw [isNeg_eq] at h1
      exact h2 ((odd_iff _).mpr (ho h1))
    · exact h.1 h1

end Takum
