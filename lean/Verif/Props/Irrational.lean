import Verif.Lemmas.ExpIrrational
import Verif.Props.ConvAccuracy
import Verif.Props.Accuracy
import Verif.Props.NaR
import Verif.Props.Calculator

/-!
# Numbers that both number systems have (C70), and the integer marker of the calculator (C64)
-/

namespace Takum
open Spec

/-- C70: the number of a logarithmic takum other than 0, 1 and -1 is irrational, so it is neither an integer nor a float nor
the number of a linear takum. -/
theorem log_number_irrational (w : W) (t : T w) (x : ℝ) (h : logVal t = some x) (h0 : x ≠ 0) (h1 : x ≠ 1) (h2 : x ≠ -1) :
    Irrational x := by
  have hn : t ≠ nar w.n := by rintro rfl; simp [logVal] at h
  rw [logVal_val (by have := w.n_pos; omega) hn] at h
  simp only [Option.some.injEq] at h
  subst h
  by_cases hz : t = 0#w.n
  · exact absurd (by simp [val, hz]) h0
  unfold val at h1 h2 ⊢
  rw [if_neg hz] at h1 h2 ⊢
  have he : ell t ≠ 0 := by
    intro he
    rw [he] at h1 h2
    have : logG 0 = 1 := by simp [logG]
    rw [this] at h1 h2
    cases hm : t.msb
    · exact h1 (by simp [hm])
    · exact h2 (by simp [hm])
  have hi : Irrational (logG (ell t)) := by
    rw [logG_exp, show ((ell t : ℝ) / 2) = ((ell t / 2 : ℚ) : ℝ) by push_cast; rfl]
    exact exp_rat_irrational (by simpa using he)
  cases t.msb
  · simpa using hi
  · simpa using hi

/-- √e, the number of the 16-bit takum 0x4800, is irrational. -/
example : Irrational (Real.sqrt (Real.exp 1)) := by
  have h1 : (1 : ℝ) < Real.sqrt (Real.exp 1) := one_lt_sqrte
  exact log_number_irrational .w16 _ _ value_sqrte (by linarith) (by linarith) (by linarith)

theorem log_rational {w : W} {t : T w} {q : ℚ} (h : logVal t = some (q : ℝ)) : q = 0 ∨ q = 1 ∨ q = -1 := by
  by_contra hc
  push Not at hc
  exact log_number_irrational w t q h (by exact_mod_cast hc.1) (by exact_mod_cast hc.2.1) (by exact_mod_cast hc.2.2) ⟨q, rfl⟩

theorem units (w : W) : logVal (0#w.n : T w) = some 0 ∧ logVal (ONE w) = some 1 ∧ logVal (-ONE w) = some (-1) ∧
    linVal (0#w.n : T w) = some 0 ∧ linVal (ONE w) = some 1 ∧ linVal (-ONE w) = some (-1) := by
  have hw : 1 ≤ w.n := by have := w.n_pos; omega
  have z0 : (0#w.n : T w) ≠ nar w.n := zero_ne_nar w
  obtain ⟨o1, -, o3, o4⟩ := ONE_facts w
  have n1 : (-ONE w).msb = true ∧ ell (-ONE w) = 0 ∧ -ONE w ≠ 0#w.n ∧ -ONE w ≠ nar w.n := by cases w <;> decide +kernel
  refine ⟨?_, ?_, ?_, ?_, ?_, ?_⟩
  · rw [logVal_val hw z0]; simp [val]
  · rw [logVal_val hw o3.2]; unfold val; rw [if_neg o3.1, o1, o4]; simp [logG]
  · rw [logVal_val hw n1.2.2.2]; unfold val; rw [if_neg n1.2.2.1, n1.1, n1.2.1]; simp [logG]
  all_goals cases w <;> decide +kernel

theorem logVal_inj {w : W} {a b : T w} {x : ℝ} (ha : logVal a = some x) (hb : logVal b = some x) : a = b := by
  have hw : 5 ≤ w.n := by have := w.n_pos; omega
  have na : a ≠ nar w.n := by rintro rfl; simp [logVal] at ha
  have nb : b ≠ nar w.n := by rintro rfl; simp [logVal] at hb
  rw [logVal_val (by omega) na] at ha
  rw [logVal_val (by omega) nb] at hb
  exact val_inj hw logG_mono logG_pos na nb (Option.some.inj (ha.trans hb.symm))

/-- Floats with the values 0, 1 and -1 are converted exactly. -/
theorem logFrom_unit {L : Libm} (hS : L.Specials) (A : Src) (w : W) {f : Fl} {z : ℚ} (hf : f.Is z) (hz : z = 0 ∨ z = 1 ∨ z = -1) :
    ∃ t : T w, logFrom L A w f = .ok t ∧ logVal t = some (z : ℝ) := by
  obtain ⟨u0, u1, u2, -⟩ := units w
  by_cases h0 : z = 0
  · subst h0
    rcases hf.cases with ⟨h, _⟩ | ⟨_, s, rfl⟩
    · exact absurd rfl h
    · exact ⟨_, logFrom_zero L A w s, by simpa using u0⟩
  have hz' := hz.resolve_left h0
  have habs : |z| = 1 := by rcases hz' with rfl | rfl <;> simp
  have hl : twoLog L (logF A w) f = .zero false := by
    unfold twoLog
    rw [hf.eq_num h0]
    have : (Fl.num z).abs = .num 1 := by simp [Fl.abs, habs]
    rw [this, hS.log_one]
    have : Fl.ofInt (logF A w) 2 = .num 2 := by
      have := (Fl.Is.ofInt_in (two_in (logF_std A w)) (F := logF A w)).eq_num (by norm_num)
      exact_mod_cast this
    rw [this]
    show Fl.round _ _ (2 * 0) = _
    simp [Fl.round, Fl.sgn]
  rw [logFrom_eq L A w hf h0, hl]
  obtain ⟨t, e, ht⟩ := logEnc_faithful A w (decide (z < 0)) (Fl.Is.zero false) (Fmt.Rep.zero _) (by simp)
  refine ⟨t, e, ?_⟩
  rcases hz' with rfl | rfl
  · have e1 : ((sg (decide ((1 : ℚ) < 0)) : ℚ) : ℝ) * logG 0 = 1 := by simp [sg, logG]; norm_num
    rw [e1] at ht
    rw [faithful_exact (k := .log) u1 ht]; simpa using u1
  · have e1 : ((sg (decide ((-1 : ℚ) < 0)) : ℚ) : ℝ) * logG 0 = -1 := by simp [sg, logG]
    rw [e1] at ht
    rw [faithful_exact (k := .log) u2 ht]; simpa using u2

/-- C70: a finite float is converted to a logarithmic takum exactly if it is 0, 1 or -1 and not otherwise. -/
theorem float_to_log_exact {L : Libm} (hL : L.Conforming) (A : Src) (w : W) (f : Fl) (z : ℚ) (hf : f.Is z) (h : A.fmt.In z) :
    ∃ t : T w, logFrom L A w f = .ok t ∧ (logVal t = some (z : ℝ) ↔ z = 0 ∨ z = 1 ∨ z = -1) := by
  obtain ⟨t, -, e, -⟩ := float_to_log_accurate hL A w f z hf h
  refine ⟨t, e, log_rational, fun hz => ?_⟩
  obtain ⟨t', e', h'⟩ := logFrom_unit hL.specials A w hf hz
  rw [e] at e'
  injection e' with e'
  rw [e', h']

theorem logTo_unit {L : Libm} (hS : L.Specials) (A : Src) (w : W) {t : T w} (ht : Regular t) (h : ell t = 0) :
    logTo L A w t = .ok (.num (sg t.msb)) := by
  obtain ⟨l, e, hl⟩ := toL_regular w _ ht
  rw [h] at hl
  rcases hl.cases with ⟨h, _⟩ | ⟨_, s, rfl⟩
  · exact absurd rfl h
  have e1 : expo A w (.zero s) = .zero s := by cases A <;> cases w <;> rfl
  have key : Fl.mul (powF A w) (Fl.ofInt (powF A w) (signFactor t))
      (L.pow (powF A w) (.num (sqe (powF A w))) (expo A w (.zero s))) = .num (sg t.msb) := by
    rw [e1, hS.exp_zero, signFactor_regular ht, ofInt_unit (powF_std A w)]
    rcases powF_std A w with h | h | h <;> rw [h] <;> cases t.msb <;> decide +kernel
  rcases logTo_eq L A w e with h | ⟨-, h⟩
  · rw [h, key]; cases A <;> cases t.msb <;> decide +kernel
  · rw [h, key]

theorem logTo_units {L : Libm} (hL : L.Conforming) (A : Src) (w : W) {t : T w} {q : ℚ} (h : logVal t = some (q : ℝ)) :
    ∃ f : Fl, logTo L A w t = .ok f ∧ f.Is q := by
  obtain ⟨u0, u1, u2, -⟩ := units w
  obtain ⟨o1, -, o3, o4⟩ := ONE_facts w
  have n1 : (-ONE w).msb = true ∧ ell (-ONE w) = 0 ∧ -ONE w ≠ 0#w.n ∧ -ONE w ≠ nar w.n := by cases w <;> decide +kernel
  rcases log_rational h with rfl | rfl | rfl
  · obtain rfl := logVal_inj h (by simpa using u0)
    exact ⟨_, logTo_zero hL.powers A w, Fl.Is.zero _⟩
  · obtain rfl := logVal_inj h (by simpa using u1)
    refine ⟨_, logTo_unit hL.specials A w o3 o4, ?_⟩
    rw [o1]; exact Fl.Is.num one_ne_zero
  · obtain rfl := logVal_inj h (by simpa using u2)
    refine ⟨_, logTo_unit hL.specials A w n1.2.2 n1.2.1, ?_⟩
    rw [n1.1]; exact Fl.Is.num (by norm_num [sg])

/-- C70: a logarithmic takum is converted to a float exactly if it is 0, 1 or -1 and not otherwise (`float`, `double` and
`long double`). -/
theorem log_to_float_exact {L : Libm} (hL : L.Conforming) (A : Src) (w : W) (t : T w) (x : ℝ) (hx : logVal t = some x) :
    (∃ (f : Fl) (v : ℚ), logTo L A w t = .ok f ∧ f.Is v ∧ (v : ℝ) = x) ↔ x = 0 ∨ x = 1 ∨ x = -1 := by
  constructor
  · rintro ⟨f, v, -, -, rfl⟩
    have := log_rational hx
    exact_mod_cast this
  · intro h
    obtain ⟨q, rfl⟩ : ∃ q : ℚ, (q : ℝ) = x := by
      rcases h with rfl | rfl | rfl
      · exact ⟨0, by simp⟩
      · exact ⟨1, by simp⟩
      · exact ⟨-1, by simp⟩
    obtain ⟨f, e, i⟩ := logTo_units hL A w hx
    exact ⟨f, q, e, i, rfl⟩

theorem linVal_unit (w : W) {q : ℚ} (h : q = 0 ∨ q = 1 ∨ q = -1) : ∃ u : T w, linVal u = some q := by
  obtain ⟨-, -, -, v0, v1, v2⟩ := units w
  rcases h with rfl | rfl | rfl
  exacts [⟨_, v0⟩, ⟨_, v1⟩, ⟨_, v2⟩]

/-- C70: conversion of a logarithmic to a linear takum of any width is exact for 0, 1 and -1 only. -/
theorem lin_from_log_exact {L : Libm} (hL : L.Conforming) (a b : W) (t : T a) (x : ℝ) (hx : logVal t = some x) :
    ∃ v : T b, linFromLog L a b t = .ok v ∧ (value .lin v = some x ↔ x = 0 ∨ x = 1 ∨ x = -1) := by
  obtain ⟨v, y, e, -, -⟩ := lin_from_log_accurate hL a b t x hx
  refine ⟨v, e, fun h => ?_, fun h => ?_⟩
  · obtain ⟨q, -, rfl⟩ : ∃ q : ℚ, linVal v = some q ∧ (q : ℝ) = x := by
      change (linVal v).map _ = _ at h; simpa using h
    have := log_rational hx
    exact_mod_cast this
  · obtain ⟨q, hq, rfl⟩ : ∃ q : ℚ, (q = 0 ∨ q = 1 ∨ q = -1) ∧ (q : ℝ) = x := by
      rcases h with rfl | rfl | rfl
      · exact ⟨0, by simp⟩
      · exact ⟨1, by simp⟩
      · exact ⟨-1, by simp⟩
    obtain ⟨u, hu⟩ := linVal_unit b hq
    have hu' : value .lin u = some (q : ℝ) := by show (linVal u).map _ = _; rw [hu]; rfl
    have key : ∀ A : Src, ∃ v' : T b, (do linFrom A b (← logTo L A a t)) = .ok v' ∧ v' = u := by
      intro A
      obtain ⟨f, ef, i⟩ := logTo_units hL A a hx
      have hin : A.fmt.In q := by
        have : A.fmt = b32 ∨ A.fmt = b64 ∨ A.fmt = x80 := by cases A <;> simp [Src.fmt]
        rcases hq with rfl | rfl | rfl
        · exact ⟨Fmt.Rep.zero _, by rw [abs_zero]; positivity⟩
        · exact one_in this
        · have := one_in this
          exact ⟨by simpa using this.1.neg, by simpa using this.2⟩
      obtain ⟨v', e', f'⟩ := linFrom_acc A b i hin
      exact ⟨v', by rw [ef, ok_bind, e'], faithful_exact hu' f'⟩
    have : v = u := by
      unfold linFromLog at e
      by_cases hw : a = .w64 ∨ b = .w64
      · rw [if_pos hw] at e
        obtain ⟨v', e', h'⟩ := key .ext
        rw [← h']; exact Except.ok.inj (e.symm.trans e')
      · rw [if_neg hw] at e
        obtain ⟨v', e', h'⟩ := key .f64
        rw [← h']; exact Except.ok.inj (e.symm.trans e')
    rw [this, hu']

/-- C70: conversion of a linear to a logarithmic takum of any width is exact for 0, 1 and -1 only. -/
theorem log_from_lin_exact {L : Libm} (hL : L.Conforming) (a b : W) (t : T a) (x : ℚ) (hx : linVal t = some x) :
    ∃ v : T b, logFromLin L a b t = .ok v ∧ (logVal v = some (x : ℝ) ↔ x = 0 ∨ x = 1 ∨ x = -1) := by
  obtain ⟨⟨e1, i1⟩, h2⟩ := lin_to_exact a t
  have is : (exactFl (linVal t)).Is x := by
    rw [hx]; unfold exactFl; simp only
    split_ifs with h
    · rw [h]; exact Fl.Is.zero _
    · exact Fl.Is.num h
  unfold logFromLin
  by_cases h : a = .w64 ∨ b = .w64
  · rw [if_pos h, e1, ok_bind]
    exact float_to_log_exact hL .ext b _ x is (i1 x hx)
  · obtain ⟨e2, i2⟩ := h2 (fun h' => h (Or.inl h'))
    rw [if_neg h, e2, ok_bind]
    exact float_to_log_exact hL .f64 b _ x is (i2 x hx)

/-- Hypotheses met by a float, a takum that is converted exactly and one that is not. -/
example : ideal.Conforming ∧ b32.In (3 / 2) ∧ (Fl.num (3 / 2)).Is (3 / 2) ∧ logVal (0x4800#16 : T .w16) = some (Real.sqrt (Real.exp 1)) ∧
    linVal (0x4400#16 : T .w16) = some (3 / 2) :=
  ⟨ideal_conforming, ⟨⟨3, -1, by norm_num, by decide, by decide⟩, by decide +kernel⟩, Fl.Is.num (by norm_num), value_sqrte,
    by decide +kernel⟩

/-- C64 for the logarithmic types: the marker is the integer that the takum stands for, and `INT64_MAX` if it stands for no
integer. -/
theorem Calc.integer_marker_log (w : W) (t : T w) :
    (∀ i : ℤ, logVal t = some (i : ℝ) → Calc.integerValueLog w t = i) ∧
    ((∀ i : ℤ, logVal t ≠ some (i : ℝ)) → Calc.integerValueLog w t = Calc.INT64_MAX) := by
  obtain ⟨u0, u1, u2, -⟩ := units w
  obtain ⟨-, -, o3, -⟩ := ONE_facts w
  have d2 : -ONE w ≠ ONE w ∧ -ONE w ≠ 0#w.n := by cases w <;> decide
  constructor
  · intro i hi
    have hq : logVal t = some (((i : ℚ)) : ℝ) := by rw [hi]; simp
    rcases log_rational hq with h | h | h
    · have : i = 0 := by exact_mod_cast h
      subst this
      obtain rfl := logVal_inj hi (by simpa using u0)
      simp [Calc.integerValueLog]
    · have : i = 1 := by exact_mod_cast h
      subst this
      obtain rfl := logVal_inj hi (by simpa using u1)
      unfold Calc.integerValueLog; rw [if_neg o3.1, if_pos rfl]
    · have : i = -1 := by exact_mod_cast h
      subst this
      obtain rfl := logVal_inj hi (by simpa using u2)
      unfold Calc.integerValueLog; rw [if_neg d2.2, if_neg d2.1, if_pos rfl]
  · intro h
    unfold Calc.integerValueLog
    rw [if_neg (by rintro rfl; exact h 0 (by simpa using u0)), if_neg (by rintro rfl; exact h 1 (by simpa using u1)),
      if_neg (by rintro rfl; exact h (-1) (by simpa using u2))]

/-- The hypotheses are met: 1 and √e. -/
example : logVal (ONE .w16) = some ((1 : ℤ) : ℝ) ∧ ∀ i : ℤ, logVal (0x4800#16 : T .w16) ≠ some (i : ℝ) := by
  refine ⟨by simpa using (units .w16).2.1, fun i h => ?_⟩
  have h1 : (1 : ℝ) < Real.sqrt (Real.exp 1) := one_lt_sqrte
  have := log_number_irrational .w16 _ _ value_sqrte (by linarith) (by linarith) (by linarith)
  have e : Real.sqrt (Real.exp 1) = i := Option.some.inj (value_sqrte.symm.trans h)
  exact this ⟨i, by rw [e]; simp⟩

end Takum
