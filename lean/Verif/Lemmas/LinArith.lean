import Verif.Props.LinFloat
import Verif.Model.Elementary

/-! # Lemmas for arithmetic on linear takums -/

namespace Takum
open Spec

/-- The floating type the wrappers for linear takums compute in. -/
def W.src : W → Src
  | .w64 => .ext
  | _ => .f64

/-- The number of a takum that is not NaR. -/
def qv {n : ℕ} (t : BitVec n) : ℚ := val lam t

theorem qv_zero (n : ℕ) : qv (0#n) = 0 := by simp [qv, val]

theorem qv_regular {n : ℕ} {t : BitVec n} (h : Regular t) : qv t = lv t := by
  unfold qv val lv; rw [if_neg h.1]; rfl

theorem qv_ne {n : ℕ} {t : BitVec n} (h : Regular t) : qv t ≠ 0 := by
  rw [qv_regular h]; exact lv_ne t

theorem linVal_qv {w : W} {t : T w} (h : t ≠ nar w.n) : linVal t = some (qv t) :=
  linVal_val (by have := w.n_pos; omega) h

theorem zero_ne_nar (w : W) : (0#w.n) ≠ nar w.n := by cases w <;> decide

theorem qv_eq_zero {w : W} {t : T w} (h : t ≠ nar w.n) : qv t = 0 ↔ t = 0#w.n := by
  constructor
  · intro h0; by_contra h1; exact qv_ne ⟨h1, h⟩ h0
  · intro h0; rw [h0, qv_zero]

theorem qv_le_iff {w : W} {a b : T w} (ha : a ≠ nar w.n) (hb : b ≠ nar w.n) : qv a ≤ qv b ↔ a.toInt ≤ b.toInt :=
  val_le_iff (by have := w.n_pos; omega) lam_strictMono lam_pos ha hb

theorem qv_inj {w : W} {a b : T w} (ha : a ≠ nar w.n) (hb : b ≠ nar w.n) (h : qv a = qv b) : a = b :=
  val_inj (by have := w.n_pos; omega) lam_strictMono lam_pos ha hb h

theorem neg_ne_nar {w : W} {t : T w} (h : t ≠ nar w.n) : -t ≠ nar w.n := by
  intro e
  have : -nar w.n = nar w.n := by cases w <;> decide
  apply h; rw [← this, ← e, BitVec.neg_neg]

theorem qv_neg {w : W} {t : T w} (h : t ≠ nar w.n) : qv (-t) = -qv t := by
  have h1 := (neg_value (by have := w.n_pos; omega : 5 ≤ w.n) t).2.1
  rw [linVal_qv h, linVal_qv (neg_ne_nar h)] at h1
  simpa using h1

theorem qv_one (w : W) : qv (ONE w) = 1 := by
  obtain ⟨h1, -, h3, h4⟩ := ONE_facts w
  rw [qv_regular h3]; unfold lv; rw [h1, h4]; simp [sg, lam]

theorem src_good (w : W) : w.src.fmt.Good := w.src.good

theorem src_facts (w : W) : 53 ≤ w.src.fmt.prec ∧ w.src.fmt.emin ≤ -1074 ∧ 1024 ≤ w.src.fmt.emax := by
  cases w <;> decide

theorem lv_src {w : W} (t : T w) : w.src.fmt.In (lv t) := by
  cases w
  · exact lv_b64 (by decide) t
  · exact lv_b64 (by decide) t
  · exact lv_b64 (by decide) t
  · exact lv_in t (by decide) (by decide) (by decide)

theorem qv_src {w : W} {t : T w} : w.src.fmt.In (qv t) := by
  unfold qv val
  split
  · refine ⟨⟨0, 0, by simp, by positivity, ?_⟩, by simp; positivity⟩
    have := (src_facts w).2.1; omega
  · exact lv_src t

theorem lv_bounds {w : W} (t : T w) : (2 : ℚ) ^ (-255 : ℤ) ≤ |lv t| ∧ |lv t| < (2 : ℚ) ^ (256 : ℤ) := by
  rw [lv_abs]
  obtain ⟨h1, h2⟩ := lam_bounds (ell t)
  have h3 := abs_ell_lt t
  rw [abs_lt] at h3
  have f1 : -256 ≤ ⌊ell t⌋ := by rw [Int.le_floor]; push_cast; linarith
  have f2 : ⌊ell t⌋ < 256 := by rw [Int.floor_lt]; push_cast; linarith
  have h4 : -255 ≤ ell t := by
    have h5 : 5 ≤ w.n := by have := w.n_pos; omega
    rw [ell_sg h5]
    have p1 := psi_ge (pos_nonneg t) (pos_lt h5 t)
    have p2 := psi_lt_255 (pos_nonneg t) (pos_lt h5 t)
    cases t.msb <;> simp [sg] <;> linarith
  have f3 : -255 ≤ ⌊ell t⌋ := by rw [Int.le_floor]; push_cast; exact h4
  refine ⟨le_trans (zpow_le_zpow_right₀ (by norm_num) f3) h1, lt_of_lt_of_le h2 (zpow_le_zpow_right₀ (by norm_num) (by omega))⟩

theorem qv_lt {w : W} (t : T w) : |qv t| < (2 : ℚ) ^ (256 : ℤ) := by
  unfold qv val
  split
  · simp
  · exact (lv_bounds t).2

/-- Rounding to the type computed in does not overflow. -/
theorem rq_src {w : W} {q : ℚ} (h : |q| ≤ (2 : ℚ) ^ (600 : ℤ)) : |w.src.fmt.rq q| < (2 : ℚ) ^ w.src.fmt.emax := by
  obtain ⟨h1, h2, h3⟩ := src_facts w
  have hr : w.src.fmt.Rep ((2 : ℚ) ^ (600 : ℤ)) := Fmt.Rep.zpow (by omega) (by omega)
  refine lt_of_le_of_lt (Fmt.abs_rq_le _ (by omega) hr h) (zpow_lt_zpow_right₀ (by norm_num) (by omega))

theorem rq_src_in {w : W} {q : ℚ} (h : |q| ≤ (2 : ℚ) ^ (600 : ℤ)) : w.src.fmt.In (w.src.fmt.rq q) :=
  ⟨Fmt.rq_rep _ (by have := (src_facts w).1; omega) _, rq_src h⟩

theorem rq_src_ne {w : W} {q : ℚ} (h : (2 : ℚ) ^ (-600 : ℤ) ≤ |q|) : w.src.fmt.rq q ≠ 0 := by
  obtain ⟨h1, h2, h3⟩ := src_facts w
  rw [← abs_pos, ← Fmt.abs_rq]
  apply Fmt.rq_pos _ (by omega)
  exact le_trans (zpow_le_zpow_right₀ (by norm_num) (by omega)) h

theorem rq_nonpos' (F : Fmt) {q : ℚ} (h : q ≤ 0) : F.rq q ≤ 0 := by
  have := F.rq_nonneg (x := -q) (by linarith)
  rw [F.rq_neg] at this; linarith

/-! ### Decoding and encoding in the wrappers -/

theorem linTo_src (w : W) {t : T w} (h : t ≠ nar w.n) : ∃ r : Fl, linTo w.src w t = .ok r ∧ r.Is (qv t) := by
  by_cases h0 : t = 0#w.n
  · subst h0
    rw [qv_zero]
    refine ⟨.zero false, ?_, Fl.Is.zero _⟩
    cases w
    · exact linToFloat64_zero _
    · exact linToFloat64_zero _
    · exact linToFloat64_zero _
    · exact linToExtended_zero _
  · have hr : Regular t := ⟨h0, h⟩
    rw [qv_regular hr]
    cases w
    · obtain ⟨r, h1, h2⟩ := linToFloat64_regular hr
      exact ⟨r, h1, h2.congr (b64.rq_of_rep (lv_b64 (by decide) t).1)⟩
    · obtain ⟨r, h1, h2⟩ := linToFloat64_regular hr
      exact ⟨r, h1, h2.congr (b64.rq_of_rep (lv_b64 (by decide) t).1)⟩
    · obtain ⟨r, h1, h2⟩ := linToFloat64_regular hr
      exact ⟨r, h1, h2.congr (b64.rq_of_rep (lv_b64 (by decide) t).1)⟩
    · exact linToExtended_regular hr

theorem linTo_src_nar (w : W) : linTo w.src w (nar w.n) = .ok .nan := by
  cases w
  · exact linToFloat64_nar _
  · exact linToFloat64_nar _
  · exact linToFloat64_nar _
  · exact linToExtended_nar _

theorem unaryLin_eq {fn : Fmt → Fl → Fl} {fix : Fl → Fl → Fl} {w : W} {t : T w} {r : Fl} (h : linTo w.src w t = .ok r) :
    unaryLin fn fix w t = linFrom w.src w (fix r (fn w.src.fmt r)) := by
  cases w
  · show (linToFloat64 .w8 t >>= _) = _
    rw [show linToFloat64 .w8 t = .ok r from h]; rfl
  · show (linToFloat64 .w16 t >>= _) = _
    rw [show linToFloat64 .w16 t = .ok r from h]; rfl
  · show (linToFloat64 .w32 t >>= _) = _
    rw [show linToFloat64 .w32 t = .ok r from h]; rfl
  · show (linToExtended .w64 t >>= _) = _
    rw [show linToExtended .w64 t = .ok r from h]; rfl

theorem binaryLin_eq {fn : Fmt → Fl → Fl → Fl} {fix : Fl → Fl → Fl → Fl} {w : W} {a b : T w} {x y : Fl}
    (h : linTo w.src w a = .ok x) (h' : linTo w.src w b = .ok y) :
    binaryLin fn fix w a b = linFrom w.src w (fix x y (fn w.src.fmt x y)) := by
  cases w
  · show (linToFloat64 .w8 a >>= fun _ => linToFloat64 .w8 b >>= _) = _
    rw [show linToFloat64 .w8 a = .ok x from h, show linToFloat64 .w8 b = .ok y from h']; rfl
  · show (linToFloat64 .w16 a >>= fun _ => linToFloat64 .w16 b >>= _) = _
    rw [show linToFloat64 .w16 a = .ok x from h, show linToFloat64 .w16 b = .ok y from h']; rfl
  · show (linToFloat64 .w32 a >>= fun _ => linToFloat64 .w32 b >>= _) = _
    rw [show linToFloat64 .w32 a = .ok x from h, show linToFloat64 .w32 b = .ok y from h']; rfl
  · show (linToExtended .w64 a >>= fun _ => linToExtended .w64 b >>= _) = _
    rw [show linToExtended .w64 a = .ok x from h, show linToExtended .w64 b = .ok y from h']; rfl

/-- The takum the wrappers return for the rational number `v`. -/
def linEnc (w : W) (v : ℚ) : T w :=
  match linFrom w.src w (Fl.mk false v) with
  | .ok t => t
  | .error _ => 0#w.n

theorem linFrom_enc {w : W} {f : Fl} {v : ℚ} (hf : f.Is v) (h : w.src.fmt.In v) : linFrom w.src w f = .ok (linEnc w v) := by
  obtain ⟨t, e, -⟩ := linFrom_finite w.src w (Fl.Is.mk false v) h
  rw [linFrom_congr w.src w hf (Fl.Is.mk false v) h, e]
  unfold linEnc; rw [e]

theorem linEnc_facts {w : W} {v : ℚ} (h : w.src.fmt.In v) :
    linEnc w v ≠ nar w.n ∧ (v = 0 ↔ linEnc w v = 0#w.n) ∧ (v < 0 ↔ (linEnc w v).toInt < 0) ∧ (0 < v ↔ 0 < (linEnc w v).toInt) := by
  obtain ⟨t, e, h1, h2, h3, h4⟩ := linFrom_finite w.src w (Fl.Is.mk false v) h
  rw [linFrom_enc (Fl.Is.mk false v) h] at e
  have e' : linEnc w v = t := Except.ok.inj e
  rw [e']
  have z : t = 0#w.n → t.toInt = 0 := by intro h; rw [h]; simp
  refine ⟨h1, ⟨h2, ?_⟩, ⟨h3, ?_⟩, ⟨h4, ?_⟩⟩
  · intro ht
    have := z ht
    rcases lt_trichotomy v 0 with h | h | h
    · have := h3 h; omega
    · exact h
    · have := h4 h; omega
  · intro ht
    rcases lt_trichotomy v 0 with h | h | h
    · exact h
    · have := z (h2 h); omega
    · have := h4 h; omega
  · intro ht
    rcases lt_trichotomy v 0 with h | h | h
    · have := h3 h; omega
    · have := z (h2 h); omega
    · exact h

theorem linEnc_zero (w : W) : linEnc w 0 = 0#w.n := by
  have h : w.src.fmt.In 0 := by have := qv_src (w := w) (t := 0#w.n); rwa [qv_zero] at this
  exact (linEnc_facts h).2.1.mp rfl

theorem linEnc_qv {w : W} {t : T w} (h : t ≠ nar w.n) : linEnc w (qv t) = t := by
  by_cases h0 : t = 0#w.n
  · rw [h0, qv_zero, linEnc_zero]
  · have e := linFrom_enc (w := w) (Fl.Is.mk false (lv t)) (lv_src t)
    rw [linFrom_lv w.src ⟨h0, h⟩ (Fl.Is.mk _ _) (lv_src t)] at e
    rw [qv_regular ⟨h0, h⟩]; exact (Except.ok.inj e).symm

theorem linEnc_mono {w : W} {u v : ℚ} (hu : w.src.fmt.In u) (hv : w.src.fmt.In v) (h : u ≤ v) :
    (linEnc w u).toInt ≤ (linEnc w v).toInt := by
  obtain ⟨t, t', e, e', h⟩ := linFrom_mono w.src w (Fl.Is.mk false u) (Fl.Is.mk false v) hu hv h
  rw [linFrom_enc (Fl.Is.mk _ _) hu] at e
  rw [linFrom_enc (Fl.Is.mk _ _) hv] at e'
  rwa [Except.ok.inj e, Except.ok.inj e']

theorem In_neg {F : Fmt} {v : ℚ} (h : F.In v) : F.In (-v) := ⟨h.1.neg, by rw [abs_neg]; exact h.2⟩

theorem linEnc_neg {w : W} {v : ℚ} (h : w.src.fmt.In v) : linEnc w (-v) = -linEnc w v := by
  by_cases hv : v = 0
  · subst hv; rw [neg_zero, linEnc_zero]; simp
  · obtain ⟨t, e, e'⟩ := linFrom_neg w.src w (by cases w <;> simp [W.src]) (Fl.Is.mk false v) hv h
    rw [linFrom_enc (Fl.Is.mk _ _) h] at e
    rw [linFrom_enc (Fl.Is.mk _ _).neg (In_neg h)] at e'
    rw [Except.ok.inj e, Except.ok.inj e']

theorem linEnc_faithful {w : W} {v : ℚ} (h : w.src.fmt.In v) {t : T w} (ht : t ≠ nar w.n) :
    (qv t ≤ v → t.toInt ≤ (linEnc w v).toInt) ∧ (v ≤ qv t → (linEnc w v).toInt ≤ t.toInt) := by
  constructor
  · intro h1; have := linEnc_mono qv_src h h1; rwa [linEnc_qv ht] at this
  · intro h1; have := linEnc_mono h qv_src h1; rwa [linEnc_qv ht] at this

/-! ### The operations -/

theorem sum_le {x y : ℚ} (hx : |x| < (2 : ℚ) ^ (256 : ℤ)) (hy : |y| < (2 : ℚ) ^ (256 : ℤ)) : |x + y| ≤ (2 : ℚ) ^ (600 : ℤ) := by
  have h1 := abs_add_le x y
  have h2 : (2 : ℚ) ^ (256 : ℤ) + (2 : ℚ) ^ (256 : ℤ) ≤ (2 : ℚ) ^ (600 : ℤ) := by decide +kernel
  exact h1.trans ((add_le_add hx.le hy.le).trans h2)

theorem linAddition_eq {w : W} {a b : T w} (ha : a ≠ nar w.n) (hb : b ≠ nar w.n) :
    linAddition w a b = .ok (linEnc w (w.src.fmt.rq (qv a + qv b))) := by
  obtain ⟨x, h1, h2⟩ := linTo_src w ha
  obtain ⟨y, h3, h4⟩ := linTo_src w hb
  have hs := sum_le (qv_lt a) (qv_lt b)
  unfold linAddition
  rw [binaryLin_eq h1 h3]
  exact linFrom_enc (h2.add h4 (rq_src hs)) (rq_src_in hs)

theorem linSubtraction_eq {w : W} {a b : T w} (ha : a ≠ nar w.n) (hb : b ≠ nar w.n) :
    linSubtraction w a b = .ok (linEnc w (w.src.fmt.rq (qv a - qv b))) := by
  obtain ⟨x, h1, h2⟩ := linTo_src w ha
  obtain ⟨y, h3, h4⟩ := linTo_src w hb
  have hs : |qv a - qv b| ≤ (2 : ℚ) ^ (600 : ℤ) := by
    rw [sub_eq_add_neg]; exact sum_le (qv_lt a) (by rw [abs_neg]; exact qv_lt b)
  unfold linSubtraction
  rw [binaryLin_eq h1 h3]
  exact linFrom_enc (h2.sub h4 (rq_src hs)) (rq_src_in hs)

theorem prod_le {x y : ℚ} (hx : |x| < (2 : ℚ) ^ (256 : ℤ)) (hy : |y| < (2 : ℚ) ^ (256 : ℤ)) : |x * y| ≤ (2 : ℚ) ^ (600 : ℤ) := by
  rw [abs_mul]
  calc |x| * |y| ≤ (2 : ℚ) ^ (256 : ℤ) * (2 : ℚ) ^ (256 : ℤ) := mul_le_mul hx.le hy.le (abs_nonneg _) (by positivity)
    _ ≤ (2 : ℚ) ^ (600 : ℤ) := by decide +kernel

theorem linMultiplication_eq {w : W} {a b : T w} (ha : a ≠ nar w.n) (hb : b ≠ nar w.n) :
    linMultiplication w a b = .ok (linEnc w (w.src.fmt.rq (qv a * qv b))) := by
  obtain ⟨x, h1, h2⟩ := linTo_src w ha
  obtain ⟨y, h3, h4⟩ := linTo_src w hb
  have hs := prod_le (qv_lt a) (qv_lt b)
  unfold linMultiplication
  rw [binaryLin_eq h1 h3]
  exact linFrom_enc (h2.mul h4 (rq_src hs)) (rq_src_in hs)

theorem quot_le {w : W} {x : ℚ} {b : T w} (hx : |x| < (2 : ℚ) ^ (256 : ℤ)) (hb : Regular b) : |x / qv b| ≤ (2 : ℚ) ^ (600 : ℤ) := by
  rw [qv_regular hb, abs_div]
  have h1 := (lv_bounds b).1
  have h2 : (0 : ℚ) < (2 : ℚ) ^ (-255 : ℤ) := by positivity
  rw [div_le_iff₀ (by linarith)]
  calc |x| ≤ (2 : ℚ) ^ (600 : ℤ) * (2 : ℚ) ^ (-255 : ℤ) := by refine hx.le.trans ?_; decide +kernel
    _ ≤ _ := by apply mul_le_mul_of_nonneg_left h1; positivity

theorem linDivision_eq {w : W} {a b : T w} (ha : a ≠ nar w.n) (hb : Regular b) :
    linDivision w a b = .ok (linEnc w (w.src.fmt.rq (qv a / qv b))) := by
  obtain ⟨x, h1, h2⟩ := linTo_src w ha
  obtain ⟨y, h3, h4⟩ := linTo_src w hb.2
  have hs := quot_le (qv_lt a) hb
  unfold linDivision
  rw [binaryLin_eq h1 h3]
  exact linFrom_enc (h2.div h4 (qv_ne hb) (rq_src hs)) (rq_src_in hs)

end Takum
