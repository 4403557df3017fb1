import Verif.Lemmas.LinGap
import Verif.Props.LinInversion

/-! # Correct rounding of 8- and 16-bit linear division, inversion and square root (C99) -/

namespace Takum
open Spec

/-- The significand of a linear takum in absolute value. -/
theorem lv_abs_sig {w : W} (t : T w) : ∃ k e : ℤ, |lv t| = k * (2 : ℚ) ^ e ∧ 0 < k ∧ k < 2 ^ (w.n - 4) := by
  have h8 := w.n_pos
  obtain ⟨k, e, hk⟩ := lv_sig t
  have hp : (0 : ℚ) < (2 : ℚ) ^ (⌊ell t⌋ - (w.n - 5 : ℕ)) := zpow_pos (by norm_num) _
  refine ⟨|k|, ⌊ell t⌋ - (w.n - 5 : ℕ), ?_, ?_, by rwa [show w.n - 4 = w.n - 5 + 1 by omega]⟩
  · rw [e, abs_mul, abs_of_pos hp, Int.cast_abs]
  · rw [abs_pos]; rintro rfl; exact lv_ne t (by rw [e]; simp)

/-- Any faithful rounding of a positive quotient is good enough. -/
theorem quot_nearest_pos {w : W} (hw : w = .w8 ∨ w = .w16) (a b : T w) {r : ℚ} (hr : w.src.fmt.In r) (r0 : 0 < r)
    (hlo : ∀ g : ℚ, w.src.fmt.In g → g ≤ |lv a / lv b| → g ≤ r)
    (hhi : ∀ g : ℚ, w.src.fmt.In g → |lv a / lv b| ≤ g → r ≤ g) :
    NearestEll false (lamInv |lv a / lv b|) (linEnc w r) := by
  obtain ⟨ka, ea, e1, a0, a1⟩ := lv_abs_sig a
  obtain ⟨kb, eb, e2, b0, b1⟩ := lv_abs_sig b
  have q0 : 0 < |lv a / lv b| := abs_pos.mpr (div_ne_zero (lv_ne a) (lv_ne b))
  obtain ⟨rt, mt⟩ := linEnc_pos hr r0
  apply gap_nearest_ell q0 rt mt
  apply gap_nearest hw hr r0 (Q := ((|lv a / lv b| : ℚ) : ℝ))
  · intro g hg h; exact hlo g hg (by exact_mod_cast h)
  · intro g hg h; exact hhi g hg (by exact_mod_cast h)
  · intro μ hμ
    have := quot_gap hw e1 e2 a0 b0 a1 b1 hμ
    rw [← abs_div] at this
    exact_mod_cast this

theorem quot_nearest {w : W} (hw : w = .w8 ∨ w = .w16) {a b : T w} (ha : Regular a) (hb : Regular b) {r : ℚ → ℚ}
    (hodd : ∀ x, r (-x) = -r x) (hr : w.src.fmt.In (r (qv a / qv b))) (hr0 : r (qv a / qv b) ≠ 0)
    (hlo : ∀ g x : ℚ, w.src.fmt.In g → g ≤ x → g ≤ r x) (hhi : ∀ g x : ℚ, w.src.fmt.In g → x ≤ g → r x ≤ g) :
    NearestEll (decide (qv a / qv b < 0)) (lamInv |qv a / qv b|) (linEnc w (r (qv a / qv b))) := by
  have zin : w.src.fmt.In 0 := by have := qv_src (w := w) (t := 0#w.n); rwa [qv_zero] at this
  rw [qv_regular ha, qv_regular hb] at *
  set q := lv a / lv b with hq
  have q0 : q ≠ 0 := div_ne_zero (lv_ne a) (lv_ne b)
  rcases lt_or_gt_of_ne q0 with h | h
  · have e : r q = -r (-q) := by rw [hodd, neg_neg]
    rw [e] at hr hr0 ⊢
    have hr' : w.src.fmt.In (r (-q)) := by have := In_neg hr; rwa [neg_neg] at this
    have p : 0 < r (-q) := lt_of_le_of_ne (hlo 0 _ zin (by linarith)) (fun h => hr0 (by rw [← h]; simp))
    have := quot_nearest_pos hw a b hr' p
      (fun g hg h' => hlo g _ hg (by rw [← hq, abs_of_neg h] at h'; exact h'))
      (fun g hg h' => hhi g _ hg (by rw [← hq, abs_of_neg h] at h'; exact h'))
    have := nearestEll_neg this
    rw [linEnc_neg hr', decide_eq_true h]
    exact this
  · have p : 0 < r q := lt_of_le_of_ne (hlo 0 _ zin h.le) hr0.symm
    have := quot_nearest_pos hw a b hr p
      (fun g hg h' => hlo g _ hg (by rw [← hq, abs_of_pos h] at h'; exact h'))
      (fun g hg h' => hhi g _ hg (by rw [← hq, abs_of_pos h] at h'; exact h'))
    rw [decide_eq_false (not_lt.mpr h.le)]
    exact this

theorem division_nearestEll {w : W} (hw : w = .w8 ∨ w = .w16) {a b : T w} (ha : Regular a) (hb : Regular b) :
    ∃ t, linDivision w a b = .ok t ∧ NearestEll (decide (qv a / qv b < 0)) (lamInv |qv a / qv b|) t := by
  refine ⟨_, linDivision_eq ha.2 hb, ?_⟩
  exact quot_nearest hw ha hb (fun x => w.src.fmt.rq_neg x) (rq_src_in (quot_le (qv_lt a) hb)) (rq_src_ne (quot_big ha hb))
    (fun g x hg h => w.src.fmt.le_rq (src_prec w) hg.1 h) (fun g x hg h => w.src.fmt.rq_le (src_prec w) hg.1 h)

theorem inversion_nearestEll {w : W} (hw : w = .w8 ∨ w = .w16) {b : T w} (hb : Regular b) :
    ∃ t, linInversion w b = .ok t ∧ NearestEll (decide (1 / qv b < 0)) (lamInv |1 / qv b|) t := by
  have := division_nearestEll hw (ONE_facts w).2.2.1 hb
  rwa [← lin_inversion_division, qv_one] at this

/-- For the 8-bit square root: `a` and the squared numbers halfway between the result and its neighbours. -/
def rootOk (a : T .w8) : Bool :=
  match linSquareRoot .w8 a with
  | .error _ => false
  | .ok t => decide (0 < t.toInt) &&
      decide (0 < (t + 1#8).toInt → qv a < lam ((ell t + ell (t + 1#8)) / 2) ^ 2 ∨
        (qv a = lam ((ell t + ell (t + 1#8)) / 2) ^ 2 ∧ t.toNat % 2 = 0)) &&
      decide (0 < (t - 1#8).toInt → lam ((ell t + ell (t - 1#8)) / 2) ^ 2 < qv a ∨
        (qv a = lam ((ell t + ell (t - 1#8)) / 2) ^ 2 ∧ t.toNat % 2 = 0))

theorem rootOk_all : ∀ a : T .w8, 0 < a.toInt → rootOk a = true := by decide +kernel

theorem next8 (t t' : T .w8) (h : 0 < t.toInt) (h' : t.toInt < t'.toInt) :
    0 < (t + 1#8).toInt ∧ (t + 1#8).toInt ≤ t'.toInt := by
  have b := BitVec.toInt_lt (x := t')
  rw [BitVec.toInt_add, show (1#8).toInt = 1 from rfl, Int.bmod_eq_of_le (by norm_num; omega) (by norm_num at b ⊢; omega)]
  omega

theorem prev8 (t t' : T .w8) (h : 0 < t'.toInt) (h' : t'.toInt < t.toInt) :
    0 < (t - 1#8).toInt ∧ t'.toInt ≤ (t - 1#8).toInt := by
  have b := BitVec.toInt_lt (x := t)
  rw [BitVec.toInt_sub, show (1#8).toInt = 1 from rfl, Int.bmod_eq_of_le (by norm_num; omega) (by norm_num at b ⊢; omega)]
  omega

theorem regular_of_pos {w : W} {t : T w} (h : 0 < t.toInt) : Regular t ∧ t.msb = false := by
  refine ⟨⟨?_, ?_⟩, ?_⟩
  · rintro rfl; simp at h
  · rintro rfl
    have := nar_toInt (n := w.n) (by have := w.n_pos; omega)
    have : (0 : ℤ) < 2 ^ (w.n - 1) := by positivity
    omega
  · rw [BitVec.msb_eq_toInt, decide_eq_false_iff_not, not_lt]; omega

theorem ell_lt_of_toInt {w : W} {a b : T w} (ha : 0 < a.toInt) (hb : 0 < b.toInt) : ell a < ell b ↔ a.toInt < b.toInt := by
  obtain ⟨r1, m1⟩ := regular_of_pos ha
  obtain ⟨r2, m2⟩ := regular_of_pos hb
  constructor
  · intro h; by_contra hc
    exact absurd (ell_le_of_toInt r2 r1 m2 m1 (not_lt.mp hc)) (not_le.mpr h)
  · intro h
    refine lt_of_le_of_ne (ell_le_of_toInt r1 r2 m1 m2 h.le) fun e => ?_
    rw [ell_inj (by have := w.n_pos; omega) (by rw [m1, m2]) e] at h
    exact lt_irrefl _ h

theorem mid_mono {a b c : ℚ} (h : b ≤ c) : lam ((a + b) / 2) ^ 2 ≤ lam ((a + c) / 2) ^ 2 := by
  have := lam_strictMono.monotone (show (a + b) / 2 ≤ (a + c) / 2 by linarith)
  have := lam_pos ((a + b) / 2)
  gcongr

theorem mid_smono {a b c : ℚ} (h : b < c) : lam ((a + b) / 2) ^ 2 < lam ((a + c) / 2) ^ 2 := by
  have := lam_strictMono (show (a + b) / 2 < (a + c) / 2 by linarith)
  have := lam_pos ((a + b) / 2)
  gcongr

/-- The square of the number halfway between two takums, on the scale of positions. -/
def midSq {w : W} (t t' : T w) : ℚ :=
  let μ := (ell t + ell t') / 2
  ((1 + Int.fract μ) * (2 : ℚ) ^ ⌊μ⌋) ^ 2

theorem root8 (a : T .w8) (ha : 0 < a.toInt) : ∃ t : T .w8, linSquareRoot .w8 a = .ok t ∧ 0 < t.toInt ∧
    ∀ t' : T .w8, 0 < t'.toInt →
      (t.toInt < t'.toInt → qv a < midSq t t' ∨ (qv a = midSq t t' ∧ t.toNat % 2 = 0)) ∧
      (t'.toInt < t.toInt → midSq t t' < qv a ∨ (qv a = midSq t t' ∧ t.toNat % 2 = 0)) := by
  have h := rootOk_all a ha
  unfold rootOk at h
  cases hs : linSquareRoot .w8 a with
  | error e => rw [hs] at h; simp at h
  | ok t =>
    rw [hs] at h
    simp only [Bool.and_eq_true, decide_eq_true_eq] at h
    obtain ⟨⟨t0, h1⟩, h2⟩ := h
    refine ⟨t, rfl, t0, ?_⟩
    intro t' t0'
    show (_ → qv a < lam _ ^ 2 ∨ (qv a = lam _ ^ 2 ∧ _)) ∧ (_ → lam _ ^ 2 < qv a ∨ (qv a = lam _ ^ 2 ∧ _))
    constructor
    · intro hl
      obtain ⟨n1, n2⟩ := next8 t t' t0 hl
      rcases eq_or_lt_of_le n2 with e | e
      · rw [← BitVec.eq_of_toInt_eq e]; exact h1 n1
      · have := mid_smono (a := ell t) ((ell_lt_of_toInt n1 t0').mpr e)
        left
        rcases h1 n1 with h | ⟨h, -⟩
        · exact h.trans this
        · rw [h]; exact this
    · intro hl
      obtain ⟨n1, n2⟩ := prev8 t t' t0' hl
      rcases eq_or_lt_of_le n2 with e | e
      · rw [BitVec.eq_of_toInt_eq e]; exact h2 n1
      · have := mid_smono (a := ell t) ((ell_lt_of_toInt t0' n1).mpr e)
        left
        rcases h2 n1 with h | ⟨h, -⟩
        · exact this.trans h
        · rw [h]; exact this

theorem root16 (a : T .w16) (ha : 0 < a.toInt) : ∃ t : T .w16, linSquareRoot .w16 a = .ok t ∧ 0 < t.toInt ∧
    ∀ t' : T .w16, 0 < t'.toInt →
      (t.toInt < t'.toInt → qv a < midSq t t' ∨ (qv a = midSq t t' ∧ t.toNat % 2 = 0)) ∧
      (t'.toInt < t.toInt → midSq t t' < qv a ∨ (qv a = midSq t t' ∧ t.toNat % 2 = 0)) := by
  obtain ⟨ra, ma⟩ := regular_of_pos (w := .w16) ha
  have hq : 0 < qv a := by
    rw [qv_regular ra]; unfold lv; rw [ma]; simp [sg, lam_pos]
  obtain ⟨e, hin, pos⟩ := linSquareRoot_pos (w := .w16) ra hq
  set r := (W.src .w16).fmt.rq (Real.sqrt (qv a)) with hr
  obtain ⟨ka, ea, e1, a0, a1⟩ := lv_abs_sig (w := .w16) a
  rw [← qv_regular ra, abs_of_pos hq] at e1
  have p1 := src_prec .w16
  have key := gap_nearest (w := .w16) (Or.inr rfl) hin pos (Q := Real.sqrt (qv a))
    (fun g hg h => Fmt.le_rq_real _ p1 hg.1 h) (fun g hg h => Fmt.rq_real_le _ p1 hg.1 h) (by
      intro μ hμ
      have lp := lam_pos μ
      have eps : (2 : ℚ) ^ (-(gapK .w16 : ℤ)) ≤ 1 := by simp only [gapK]; norm_num
      rcases sqrt_gap e1 a0 a1 hμ with h | h | h
      · left; rw [h]; push_cast; exact Real.sqrt_sq (by exact_mod_cast lp.le)
      · right; left
        apply Real.le_sqrt_of_sq_le
        exact_mod_cast h
      · right; right
        apply Real.sqrt_le_iff.mpr
        constructor
        · have : 0 ≤ lam μ * (1 - (2 : ℚ) ^ (-(gapK .w16 : ℤ))) := mul_nonneg lp.le (by linarith)
          exact_mod_cast this
        · exact_mod_cast h)
  obtain ⟨rt, mt⟩ := linEnc_pos hin pos
  have t0 := (linEnc_facts hin).2.2.2.mp pos
  refine ⟨_, e, t0, ?_⟩
  intro t' t0'
  obtain ⟨rt', mt'⟩ := regular_of_pos (w := .w16) t0'
  obtain ⟨k1, k2⟩ := key t' rt' mt'
  have qr : (0 : ℝ) ≤ (qv a : ℝ) := by exact_mod_cast hq.le
  show (_ → qv a < lam _ ^ 2 ∨ (qv a = lam _ ^ 2 ∧ _)) ∧ (_ → lam _ ^ 2 < qv a ∨ (qv a = lam _ ^ 2 ∧ _))
  set μ := (ell (linEnc .w16 r) + ell t') / 2 with hμ
  have lp := lam_pos μ
  have lp' : (0 : ℝ) < (lam μ : ℝ) := by exact_mod_cast lp
  have heq : Real.sqrt (qv a) = lam μ → qv a = lam μ ^ 2 := by
    intro h
    have := Real.sq_sqrt qr
    rw [h] at this
    exact_mod_cast this.symm
  constructor
  · intro hl
    rcases k1 ((ell_lt_of_toInt (w := .w16) t0 t0').mpr hl) with h | ⟨h, ev⟩
    · left
      rw [Real.sqrt_lt' lp'] at h
      exact_mod_cast h
    · exact Or.inr ⟨heq h, ev⟩
  · intro hl
    rcases k2 ((ell_lt_of_toInt (w := .w16) t0' t0).mpr hl) with h | ⟨h, ev⟩
    · left
      rw [Real.lt_sqrt lp'.le] at h
      exact_mod_cast h
    · exact Or.inr ⟨heq h, ev⟩

/-- Distances from a number that lies on the side of `p` of the middle of `p` and `q`. -/
theorem dist_of_mid {p q Q : ℝ} (h : p < q) (hQ : Q < (p + q) / 2) : |p - Q| < |q - Q| := by
  rw [abs_of_pos (show 0 < q - Q by linarith), abs_lt]; constructor <;> linarith

theorem dist_of_mid' {p q Q : ℝ} (h : q < p) (hQ : (p + q) / 2 < Q) : |p - Q| < |q - Q| := by
  rw [abs_of_neg (show q - Q < 0 by linarith), abs_lt]; constructor <;> linarith

theorem lam_mid {t t' : ℚ} {j : ℤ} (h1 : (j : ℚ) ≤ min t t') (h2 : max t t' ≤ j + 1) :
    lam ((t + t') / 2) = (lam t + lam t') / 2 := by
  rw [le_min_iff] at h1
  rw [max_le_iff] at h2
  rw [lam_affine h1.1 h2.1, lam_affine h1.2 h2.2, lam_affine (j := j) (by linarith [h1.1, h1.2]) (by linarith [h2.1, h2.2])]
  ring

/-- C99. The 16-bit linear square root is the positive takum nearest to the exact root, ties to even. -/
theorem lin16_squareRoot_nearest_partial (a : T .w16) (x : ℚ) (hx : linVal a = some x) (x0 : 0 < x) :
    ∃ t : T .w16, ∃ r : ℚ, linSquareRoot .w16 a = .ok t ∧ linVal t = some r ∧ 0 < r ∧
      ∀ (t' : T .w16) (r' : ℚ), linVal t' = some r' → 0 < r' →
        |(r : ℝ) - Real.sqrt x| < |(r' : ℝ) - Real.sqrt x| ∨
          (|(r : ℝ) - Real.sqrt x| = |(r' : ℝ) - Real.sqrt x| ∧ (t' = t ∨ t.toNat % 2 = 0)) := by
  have han : a ≠ nar 16 := by rintro rfl; simp [linVal] at hx
  have pos_iff : ∀ u : T .w16, u ≠ nar 16 → (0 < qv u ↔ 0 < u.toInt) := by
    intro u hu
    have := (qv_le_iff (w := .w16) hu (zero_ne_nar .w16)).not
    rw [qv_zero, not_le, not_le] at this
    simpa using this
  rw [linVal_qv (w := .w16) han, Option.some.injEq] at hx
  subst hx
  obtain ⟨t, e, t0, hmid⟩ := root16 a ((pos_iff a han).mp x0)
  obtain ⟨rt, mt⟩ := regular_of_pos (w := .w16) t0
  have val : ∀ u : T .w16, Regular u → u.msb = false → qv u = lam (ell u) := by
    intro u hu hm; rw [qv_regular hu]; unfold lv; rw [hm]; simp [sg]
  refine ⟨t, qv t, e, linVal_qv (w := .w16) rt.2, (pos_iff t rt.2).mpr t0, ?_⟩
  intro t' r' hr' r0'
  have hn' : t' ≠ nar 16 := by rintro rfl; simp [linVal] at hr'
  rw [linVal_qv (w := .w16) hn', Option.some.injEq] at hr'
  subst hr'
  have t0' := (pos_iff t' hn').mp r0'
  obtain ⟨rt', mt'⟩ := regular_of_pos (w := .w16) t0'
  by_cases hne : t' = t
  · right; rw [hne]; exact ⟨rfl, Or.inl rfl⟩
  obtain ⟨u, ru, su, une, hbet, j, j1, j2⟩ := neighbour (n := 16) (by norm_num) rt rt' (by rw [mt, mt']) hne
  rw [mt] at su
  have u0 : 0 < u.toInt := by
    rw [← pos_iff u ru.2, val u ru su]; exact lam_pos _
  have qr : (0 : ℝ) ≤ (qv a : ℝ) := by exact_mod_cast x0.le
  have hm : midSq (w := .w16) t u = ((qv t + qv u) / 2) ^ 2 := by
    rw [val t rt mt, val u ru su, ← lam_mid j1 j2]; rfl
  have mp : 0 ≤ ((qv t : ℝ) + qv u) / 2 := by
    have h1 := (pos_iff t rt.2).mpr t0
    have h2 := (pos_iff u ru.2).mpr u0
    have : 0 ≤ (qv t + qv u) / 2 := by linarith
    exact_mod_cast this
  obtain ⟨k1, k2⟩ := hmid u u0
  rw [hm] at k1 k2
  have heq : qv a = ((qv t + qv u) / 2) ^ 2 → Real.sqrt (qv a) = ((qv t : ℝ) + qv u) / 2 := by
    intro h; rw [h]; push_cast; exact Real.sqrt_sq mp
  have tie : Real.sqrt (qv a) = ((qv t : ℝ) + qv u) / 2 → |(qv t : ℝ) - Real.sqrt (qv a)| = |(qv u : ℝ) - Real.sqrt (qv a)| := by
    intro h
    rw [h, show (qv t : ℝ) - (qv t + qv u) / 2 = -((qv u - qv t) / 2) by ring,
      show (qv u : ℝ) - (qv t + qv u) / 2 = (qv u - qv t) / 2 by ring, abs_neg]
  rcases hbet with ⟨b1, b2⟩ | ⟨b1, b2⟩
  · have l1 : (qv t : ℝ) < qv u := by
      have := lam_strictMono b1; rw [val t rt mt, val u ru su]; exact_mod_cast this
    have l2 : (qv u : ℝ) ≤ qv t' := by
      have := lam_strictMono.monotone b2; rw [val u ru su, val t' rt' mt']; exact_mod_cast this
    rcases k1 ((ell_lt_of_toInt (w := .w16) t0 u0).mp b1) with h | ⟨h, ev⟩
    · left
      apply dist_of_mid (by linarith)
      have : Real.sqrt (qv a) < ((qv t : ℝ) + qv u) / 2 := by
        rw [Real.sqrt_lt' (lt_of_le_of_ne mp (by
          intro h0
          have : (0 : ℚ) = (qv t + qv u) / 2 := by exact_mod_cast h0
          rw [← this] at h; linarith))]
        exact_mod_cast h
      linarith
    · have hs := heq h
      rcases eq_or_lt_of_le l2 with h' | h'
      · right; rw [← h']; exact ⟨tie hs, Or.inr ev⟩
      · left; apply dist_of_mid (by linarith); rw [hs]; linarith
  · have l1 : (qv u : ℝ) < qv t := by
      have := lam_strictMono b2; rw [val t rt mt, val u ru su]; exact_mod_cast this
    have l2 : (qv t' : ℝ) ≤ qv u := by
      have := lam_strictMono.monotone b1; rw [val u ru su, val t' rt' mt']; exact_mod_cast this
    rcases k2 ((ell_lt_of_toInt (w := .w16) u0 t0).mp b2) with h | ⟨h, ev⟩
    · left
      apply dist_of_mid' (by linarith)
      have : ((qv t : ℝ) + qv u) / 2 < Real.sqrt (qv a) := by
        rw [Real.lt_sqrt mp]
        exact_mod_cast h
      linarith
    · have hs := heq h
      rcases eq_or_lt_of_le l2 with h' | h'
      · right; rw [h']; exact ⟨tie hs, Or.inr ev⟩
      · left; apply dist_of_mid' (by linarith); rw [hs]; linarith

/-- C99. The 8-bit linear square root is nearest on the scale of positions: the argument lies on its side
of the square of the number halfway (in position) between it and any other positive takum. -/
theorem lin8_squareRoot_nearest_partial (a : T .w8) (x : ℚ) (hx : linVal a = some x) (x0 : 0 < x) :
    ∃ t : T .w8, linSquareRoot .w8 a = .ok t ∧ 0 < t.toInt ∧
      ∀ (t' : T .w8), 0 < t'.toInt → ∀ μ m : ℚ, μ = (ell t + ell t') / 2 → m = (1 + Int.fract μ) * (2 : ℚ) ^ ⌊μ⌋ →
        (t.toInt < t'.toInt → x < m ^ 2 ∨ (x = m ^ 2 ∧ t.toNat % 2 = 0)) ∧
        (t'.toInt < t.toInt → m ^ 2 < x ∨ (x = m ^ 2 ∧ t.toNat % 2 = 0)) := by
  have han : a ≠ nar 8 := by rintro rfl; simp [linVal] at hx
  rw [linVal_qv (w := .w8) han, Option.some.injEq] at hx
  subst hx
  have h0 : 0 < a.toInt := by
    have := (qv_le_iff (w := .w8) han (zero_ne_nar .w8)).not
    rw [qv_zero, not_le, not_le] at this
    simpa using this.mp x0
  obtain ⟨t, e, t0, hmid⟩ := root8 a h0
  refine ⟨t, e, t0, ?_⟩
  rintro t' t0' μ m rfl rfl
  exact hmid t' t0'

/-- The square root of 2 for 16 bits, and an exact one for 8 bits. -/
example : linVal (0x4800#16 : T .w16) = some 2 ∧ linSquareRoot .w16 0x4800#16 = .ok 0x4350#16 := by decide +kernel
example : linVal (0x4c#8 : T .w8) = some 4 ∧ linSquareRoot .w8 0x4c#8 = .ok 0x48#8 := by decide +kernel

/-- C99. 16-bit linear division and inversion return the takum nearest to the exact quotient, ties to even,
saturating. -/
theorem lin16_division_nearest_partial (a b : T .w16) (x y : ℚ) (ha : linVal a = some x) (hb : linVal b = some y) (y0 : y ≠ 0) :
    (x ≠ 0 → ∃ t, linDivision .w16 a b = .ok t ∧ NearestLin (x / y) t) ∧
    ∃ t, linInversion .w16 b = .ok t ∧ NearestLin (1 / y) t := by
  have han : a ≠ nar 16 := by rintro rfl; simp [linVal] at ha
  have hbn : b ≠ nar 16 := by rintro rfl; simp [linVal] at hb
  rw [linVal_qv (w := .w16) han, Option.some.injEq] at ha
  rw [linVal_qv (w := .w16) hbn, Option.some.injEq] at hb
  subst ha hb
  have h2 : Regular b := ⟨fun e => y0 (by rw [e, qv_zero]), hbn⟩
  constructor
  · intro x0
    have h1 : Regular a := ⟨fun e => x0 (by rw [e, qv_zero]), han⟩
    obtain ⟨t, e, h⟩ := division_nearestEll (w := .w16) (Or.inr rfl) h1 h2
    exact ⟨t, e, nearestLin16 (div_ne_zero x0 y0) h⟩
  · obtain ⟨t, e, h⟩ := inversion_nearestEll (w := .w16) (Or.inr rfl) h2
    exact ⟨t, e, nearestLin16 (div_ne_zero one_ne_zero y0) h⟩

/-- C99. 8-bit linear division and inversion return the takum nearest to the exact quotient on the
logarithmic-linear scale of the format. -/
theorem lin8_division_nearest_partial (a b : T .w8) (x y : ℚ) (ha : linVal a = some x) (hb : linVal b = some y) (y0 : y ≠ 0) :
    (x ≠ 0 → ∃ t p, linDivision .w8 a b = .ok t ∧ |x / y| = (1 + Int.fract p) * (2 : ℚ) ^ ⌊p⌋ ∧
      NearestEll (decide (x / y < 0)) p t) ∧
    ∃ t p, linInversion .w8 b = .ok t ∧ |1 / y| = (1 + Int.fract p) * (2 : ℚ) ^ ⌊p⌋ ∧
      NearestEll (decide (1 / y < 0)) p t := by
  have han : a ≠ nar 8 := by rintro rfl; simp [linVal] at ha
  have hbn : b ≠ nar 8 := by rintro rfl; simp [linVal] at hb
  rw [linVal_qv (w := .w8) han, Option.some.injEq] at ha
  rw [linVal_qv (w := .w8) hbn, Option.some.injEq] at hb
  subst ha hb
  have hp : ∀ v : ℚ, v ≠ 0 → |v| = (1 + Int.fract (lamInv |v|)) * (2 : ℚ) ^ ⌊lamInv (|v|)⌋ :=
    fun v hv => (lam_lamInv (abs_pos.mpr hv)).symm
  have h2 : Regular b := ⟨fun e => y0 (by rw [e, qv_zero]), hbn⟩
  constructor
  · intro x0
    have h1 : Regular a := ⟨fun e => x0 (by rw [e, qv_zero]), han⟩
    obtain ⟨t, e, h⟩ := division_nearestEll (w := .w8) (Or.inl rfl) h1 h2
    exact ⟨t, _, e, hp _ (div_ne_zero x0 y0), h⟩
  · obtain ⟨t, e, h⟩ := inversion_nearestEll (w := .w8) (Or.inl rfl) h2
    exact ⟨t, _, e, hp _ (div_ne_zero one_ne_zero y0), h⟩

/-- A third, which no takum has. -/
example : linVal (0x4000#16 : T .w16) = some 1 ∧ linVal (0x4a00#16 : T .w16) = some 3 ∧
    linDivision .w16 0x4000#16 0x4a00#16 = .ok 0x3555#16 ∧ linVal (0x3555#16 : T .w16) = some (1365 / 4096) := by decide +kernel

/-- C99 is false for 32 and 64 bits: the quotient (root) is rounded to a number of the intermediate
format that is halfway between two takums, and then the wrong way. -/
theorem lin_division_nearest_refuted :
    (linDivision .w32 0x43b94177#32 0x4414c343#32 = .ok 0x3f86cf4a#32 ∧
      ∃ x y r r' : ℚ, linVal (0x43b94177#32) = some x ∧ linVal (0x4414c343#32) = some y ∧
        linVal (0x3f86cf4a#32) = some r ∧ linVal (0x3f86cf4b#32) = some r' ∧ |r' - x / y| < |r - x / y|) ∧
    (linDivision .w64 0x42b4f74c426445c4#64 0x46c0fd4ff8130c43#64 = .ok 0x3b9c78ea50105036#64 ∧
      ∃ x y r r' : ℚ, linVal (0x42b4f74c426445c4#64) = some x ∧ linVal (0x46c0fd4ff8130c43#64) = some y ∧
        linVal (0x3b9c78ea50105036#64) = some r ∧ linVal (0x3b9c78ea50105035#64) = some r' ∧ |r' - x / y| < |r - x / y|) := by
  have e : ∀ (w : W) (t : T w), t ≠ nar w.n → linVal t = some (qv t) := fun w t h => linVal_qv h
  refine ⟨⟨by decide +kernel, _, _, _, _, e .w32 _ (by decide), e .w32 _ (by decide), e .w32 _ (by decide),
    e .w32 _ (by decide), by decide +kernel⟩, ⟨by decide +kernel, _, _, _, _, e .w64 _ (by decide), e .w64 _ (by decide),
    e .w64 _ (by decide), e .w64 _ (by decide), by decide +kernel⟩⟩

/-- The squares of the midpoints show which of two adjacent takums is nearer to the root. -/
theorem lin_squareRoot_nearest_refuted :
    (linSquareRoot .w32 0x3fffffff#32 = .ok 0x40000000#32 ∧ ∃ x r r' : ℚ, linVal (0x3fffffff#32) = some x ∧
      linVal (0x40000000#32) = some r ∧ linVal (0x3fffffff#32) = some r' ∧
      |(r' : ℝ) - Real.sqrt x| < |(r : ℝ) - Real.sqrt x|) ∧
    (linSquareRoot .w64 0x3fffffffffffffff#64 = .ok 0x4000000000000000#64 ∧ ∃ x r r' : ℚ,
      linVal (0x3fffffffffffffff#64) = some x ∧ linVal (0x4000000000000000#64) = some r ∧
      linVal (0x3fffffffffffffff#64) = some r' ∧ |(r' : ℝ) - Real.sqrt x| < |(r : ℝ) - Real.sqrt x|) := by
  have e : ∀ (w : W) (t : T w), t ≠ nar w.n → linVal t = some (qv t) := fun w t h => linVal_qv h
  have main : ∀ x r r' : ℚ, 0 < x → r' < r → 0 < r' → x < ((r' + r) / 2) ^ 2 →
      |(r' : ℝ) - Real.sqrt x| < |(r : ℝ) - Real.sqrt x| := by
    intro x r r' hx h h0 hm
    apply dist_of_mid (by exact_mod_cast h)
    rw [Real.sqrt_lt' (by have : 0 < (r' + r) / 2 := by linarith
                          exact_mod_cast this)]
    exact_mod_cast hm
  refine ⟨⟨by decide +kernel, _, _, _, e .w32 _ (by decide), e .w32 _ (by decide), e .w32 _ (by decide), main _ _ _ ?_ ?_ ?_ ?_⟩,
    ⟨by decide +kernel, _, _, _, e .w64 _ (by decide), e .w64 _ (by decide), e .w64 _ (by decide), main _ _ _ ?_ ?_ ?_ ?_⟩⟩
  all_goals decide +kernel

end Takum
