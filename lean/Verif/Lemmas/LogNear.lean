import Verif.Lemmas.ConvAcc
import Verif.Lemmas.Gap
import Verif.Lemmas.TestElem
import Verif.Props.RelError
import Verif.Props.Widths

/-!
# How close the encoding of a position on the logarithmic scale is
-/

namespace Takum
open Spec

theorem abs_logG (s : Bool) (q : ℚ) : |((sg s : ℚ) : ℝ) * logG q| = logG q := by
  have := logG_pos q
  cases s <;> simp [sg, abs_of_pos this]

theorem logScale_sg (s : Bool) (q : ℚ) : logScale (((sg s : ℚ) : ℝ) * logG q) = q := by
  unfold logScale; rw [abs_logG]; exact log_logG q

theorem sg_neg_iff (s : Bool) (q : ℚ) : ((sg s : ℚ) : ℝ) * logG q < 0 ↔ s = true := by
  have := logG_pos q
  cases s <;> simp [sg, this, this.le]

/-- A takum that encloses a position beyond all takums is the outermost one. -/
theorem sat_best {w : W} {s : Bool} {q : ℚ} {t : T w} (rt : Regular t) (ms : t.msb = s) (hf : Faithful .log ((sg s : ℚ) * logG q) t)
    (hall : (∀ e : T w, Regular e → e.msb = s → ell e ≤ q) ∨ (∀ e : T w, Regular e → e.msb = s → q ≤ ell e)) (e : T w) (re : Regular e)
    (me : e.msb = s) : |ell t - q| ≤ |ell e - q| := by
  have h5 : 1 ≤ w.n := by have := w.n_pos; omega
  have ve : value .log e = some (((sg e.msb : ℚ) : ℝ) * logG (ell e)) := logVal_regular h5 re
  have vt : value .log t = some (((sg t.msb : ℚ) : ℝ) * logG (ell t)) := logVal_regular h5 rt
  rw [me] at ve
  rw [ms] at vt
  have ord := hf.2.2 e _ ve
  have le := (value_order .log ve vt).mp
  have ge := (value_order .log vt ve).mp
  rcases hall with h | h
  · have h1 := h e re me
    have h2 := h t rt ms
    have key : ell e ≤ ell t := by
      have g := logG_mono.le_iff_le.mpr h1
      rw [← logG_mono.le_iff_le]
      cases s
      · simp only [sg, Bool.false_eq_true, if_false, Rat.cast_one, one_mul] at ord le
        exact le (ord.1 g)
      · simp only [sg, if_true, Rat.cast_neg, Rat.cast_one, neg_mul, one_mul, neg_le_neg_iff] at ord ge
        exact ge (ord.2 g)
    rw [abs_of_nonpos (by linarith), abs_of_nonpos (by linarith)]; linarith
  · have h1 := h e re me
    have h2 := h t rt ms
    have key : ell t ≤ ell e := by
      have g := logG_mono.le_iff_le.mpr h1
      rw [← logG_mono.le_iff_le]
      cases s
      · simp only [sg, Bool.false_eq_true, if_false, Rat.cast_one, one_mul] at ord ge
        exact ge (ord.2 g)
      · simp only [sg, if_true, Rat.cast_neg, Rat.cast_one, neg_mul, one_mul, neg_le_neg_iff] at ord le
        exact le (ord.1 g)
    rw [abs_of_nonneg (by linarith), abs_of_nonneg (by linarith)]; linarith

/-- A 64-bit takum that encloses a position within the range of the narrower types is close to it. -/
theorem faithful_close {s : Bool} {q : ℚ} {t : T .w64} (hq : |q| ≤ 255 - 1 / 2 ^ 20) (hf : FaithfulLog ((sg s : ℚ) * logG q) t) :
    |ell t - q| ≤ 1 / 2 ^ 52 := by
  obtain ⟨rM, r1, -⟩ := max_facts .w64
  have hr : InRangeLog .w64 ((sg s : ℚ) * logG q) := by
    have m1 : (1#W.w64.n : T .w64).msb = false := by decide
    have m2 : (BitVec.ofNat W.w64.n (2 ^ (W.w64.n - 1) - 1) : T .w64).msb = false := by decide
    refine ⟨_, _, logVal_regular (by decide) r1, logVal_regular (by decide) rM, ?_, ?_⟩
    · rw [abs_logG, m1]
      simp only [sg, Bool.false_eq_true, if_false, Rat.cast_one, one_mul]
      refine logG_mono.le_iff_le.mpr (le_trans ?_ (abs_le.mp hq).1)
      decide +kernel
    · rw [abs_logG, m2]
      simp only [sg, Bool.false_eq_true, if_false, Rat.cast_one, one_mul]
      refine logG_mono.le_iff_le.mpr (le_trans (abs_le.mp hq).2 ?_)
      decide +kernel
  obtain ⟨z, hz, h⟩ := bracket_log hf hr
  have lz := logScale_val hf.1 hz
  have lq := logScale_sg s q
  have main : |((ell t : ℚ) : ℝ) - q| ≤ 1 / 2 ^ 52 := by
    rcases h with e | ⟨u, p, p', hu, hu', ru, ru', mu, mu', pq, g1, g2⟩
    · rw [← lz, ← lq, e, sub_self, abs_zero]; positivity
    · have o1 := (hf.2.2 u p ru hu).1 g1.le
      have o2 := (hf.2.2 _ p' ru' hu').2 g2.le
      have vt : value .log t = some z := hz
      have l1 := (value_order .log (show value .log u = some p from hu) vt).mp o1
      have l2 := (value_order .log vt (show value .log (u + 1#W.w64.n) = some p' from hu')).mp o2
      obtain ⟨k, hk, lk⟩ := min_precision (w := .w64) (by decide) u
      obtain ⟨s1, s2⟩ := precision_spacing_log .w64 u k hk (Or.inl (by decide)) p p' hu hu' pq
      have hk2 : (1 : ℝ) / 2 ^ (k + 1) ≤ 1 / 2 ^ 53 :=
        one_div_le_one_div_of_le (by positivity) (pow_le_pow_right₀ (by norm_num) (by simp only [W.n] at lk; omega))
      set v : ℝ := (sg s : ℚ) * logG q with hv
      have bound : ∀ {a b x y E : ℝ}, 0 < a → a ≤ x → x ≤ b → a ≤ y → y ≤ b → b = a * Real.exp E → |Real.log x - Real.log y| ≤ E := by
        intro a b x y E ha h1 h2 h3 h4 hb
        have lb : Real.log b = Real.log a + E := by rw [hb, Real.log_mul ha.ne' (Real.exp_pos E).ne', Real.log_exp]
        have q1 := Real.log_le_log ha h1
        have q2 := Real.log_le_log (ha.trans_le h1) h2
        have q3 := Real.log_le_log ha h3
        have q4 := Real.log_le_log (ha.trans_le h3) h4
        rw [abs_le]; constructor <;> linarith
      have hlog : abs (Real.log (abs z) - Real.log (abs v)) ≤ 1 / 2 ^ (k + 1) := by
        rcases lt_or_gt_of_ne (show p ≠ 0 by rintro rfl; simp at pq) with hp | hp
        · have hp' : p' < 0 := by by_contra k'; nlinarith
          rw [abs_of_neg (show z < 0 by linarith), abs_of_neg (show v < 0 by linarith)]
          exact bound (a := -p') (b := -p) (by linarith) (by linarith) (by linarith) (by linarith) (by linarith) (by rw [s2 hp]; ring)
        · rw [abs_of_pos (show 0 < z by linarith), abs_of_pos (show 0 < v by linarith)]
          exact bound hp l1 l2 g1.le g2.le (s1 hp)
      rw [← lz, ← lq]
      unfold logScale
      rw [← mul_sub, abs_mul, abs_two]
      have : (1 : ℝ) / 2 ^ 52 = 2 * (1 / 2 ^ 53) := by norm_num
      rw [this]
      linarith
  refine (Rat.cast_le (K := ℝ)).mp ?_
  push_cast
  exact main

/-- How far from the nearest takum the encoding may be. -/
def encSlack : Src → W → ℚ
  | .f32, .w8 => 1 / 2 ^ 15 + 1 / 2 ^ 18
  | _, _ => 1 / 2 ^ 51

theorem logEnc_near (A : Src) (w : W) (s : Bool) {l : Fl} {q : ℚ} (hl : l.Is q) (hq : (logF A w).Rep q) (hb : |q| ≤ 2 ^ 101) :
    ∃ t : T w, logEnc A w s l = .ok t ∧ Regular t ∧ t.msb = s ∧
      ((∀ e : T w, Regular e → e.msb = s → ell e ≤ q) ∨ (∀ e : T w, Regular e → e.msb = s → q ≤ ell e) →
        ∀ e : T w, Regular e → e.msb = s → |ell t - q| ≤ |ell e - q|) ∧
      ∀ e : T w, Regular e → e.msb = s → |ell t - q| ≤ |ell e - q| + encSlack A w := by
  obtain ⟨t, et, rt, mt⟩ := logEnc_regular A w s hl hq hb
  obtain ⟨t', et', ft⟩ := logEnc_faithful A w s hl hq hb
  obtain rfl : t' = t := by rw [et] at et'; exact (Except.ok.inj et').symm
  refine ⟨t', et, rt, mt, fun hall => sat_best rt mt ft hall, fun e re me => ?_⟩
  have s0 : 0 ≤ encSlack A w := by cases A <;> cases w <;> simp [encSlack] <;> norm_num
  by_cases hall : (∀ e : T w, Regular e → e.msb = s → ell e ≤ q) ∨ (∀ e : T w, Regular e → e.msb = s → q ≤ ell e)
  · exact (sat_best rt mt ft hall e re me).trans (by linarith)
  have dir : ∀ {w : W} {t : T w}, w ≠ .w8 → fromSAndL w s l = .ok t → w.encF.Rep q → ∀ e : T w, Regular e → e.msb = s →
      |ell t - q| ≤ |ell e - q| + 1 / 2 ^ 51 := by
    intro w t hw h hq e re me
    obtain ⟨v, ev, -, -, h'⟩ := enc_almost (w := w) s hl hq
    obtain rfl : t = v := by rw [h] at ev; exact Except.ok.inj ev
    refine (h' e re me).trans (add_le_add_right ?_ _)
    cases w <;> first | exact absurd rfl hw | (simp only [W.grid]; norm_num)
  have red : ∀ {w : W} {t : T w}, w.n < W.w64.n → (do reduce .w64 w (← fromSAndL .w64 s l)) = .ok t → x80.Rep q →
      ¬((∀ e : T w, Regular e → e.msb = s → ell e ≤ q) ∨ (∀ e : T w, Regular e → e.msb = s → q ≤ ell e)) → ∀ e : T w, Regular e → e.msb = s →
      |ell t - q| ≤ |ell e - q| + 1 / 2 ^ 51 := by
    intro w t hw h hq hall e re me
    obtain ⟨u, eu, fu⟩ := enc_faithfulLog' (w := .w64) s hl hq
    obtain ⟨u', eu', ru, mu⟩ := enc_regular (w := .w64) s hl hq
    obtain rfl : u' = u := by rw [eu] at eu'; exact (Except.ok.inj eu').symm
    rw [eu, ok_bind] at h
    obtain ⟨v, ev, ⟨-, -, hn⟩, -⟩ := narrow_nearest hw u' ru
    obtain rfl : t = v := by rw [h] at ev; exact Except.ok.inj ev
    have hw' : w ≠ .w64 := by rintro rfl; exact lt_irrefl _ hw
    have hqb : |q| ≤ 255 - 1 / 2 ^ 20 := by
      push Not at hall
      obtain ⟨⟨a, ra, -, ha⟩, ⟨b, rb, -, hb⟩⟩ := hall
      have q1 := (abs_le.mp (Test.ell_lt_255 hw' ra)).2
      have q2 := (abs_le.mp (Test.ell_lt_255 hw' rb)).1
      rw [abs_le]; constructor <;> linarith
    have c := faithful_close hqb fu
    have n : |ell t - ell u'| ≤ |ell e - ell u'| := by
      rcases hn e re (me.trans mu.symm) with g | g
      · exact g.le
      · exact g.1.le
    have t1 := abs_sub_le (ell t) (ell u') q
    have t2 := abs_sub_le (ell e) q (ell u')
    rw [abs_sub_comm q] at t2
    have : (1 : ℚ) / 2 ^ 51 = 1 / 2 ^ 52 + 1 / 2 ^ 52 := by norm_num
    rw [this]
    linarith
  cases A
  · cases w
    · -- through `float`
      have hqb : |q| ≤ 256 := by
        push Not at hall
        obtain ⟨⟨a, ra, -, ha⟩, ⟨b, rb, -, hb⟩⟩ := hall
        have q1 := (abs_le.mp (Test.ell_lt_255 (by decide) ra)).2
        have q2 := (abs_le.mp (Test.ell_lt_255 (by decide) rb)).1
        rw [abs_le]; constructor <;> norm_num at q1 q2 ⊢ <;> linarith
      obtain ⟨v, ev, -, -, h'⟩ := enc_almost (w := .w8) s (cast32_is hl hb) ((b32.rq_rep (by decide) q).mono (by decide) (by decide))
      obtain rfl : t' = v := by
        have : fromSAndL .w8 s (Fl.cast b32 l) = .ok t' := et
        rw [this] at ev; exact Except.ok.inj ev
      have h1 := h' e re me
      have h2 := rq_err_any (F := b32) (Or.inl rfl) q hqb
      rw [show b32.prec = 24 from rfl] at h2
      have t1 := abs_sub_le (ell t') (b32.rq q) q
      have t2 := abs_sub_le (ell e) q (b32.rq q)
      rw [abs_sub_comm q] at t2
      simp only [encSlack, W.grid] at h1 ⊢
      norm_num at h1 h2 ⊢
      linarith
    · exact dir (w := .w16) (by decide) et hq e re me
    · exact dir (w := .w32) (by decide) et (hq.mono (by decide) (by decide)) e re me
    · exact dir (w := .w64) (by decide) et hq e re me
  · cases w
    · exact red (by decide) et hq hall e re me
    · exact red (by decide) et hq hall e re me
    · exact dir (w := .w32) (by decide) et hq e re me
    · exact dir (w := .w64) (by decide) et hq e re me
  · cases w
    · exact red (by decide) et hq hall e re me
    · exact red (by decide) et hq hall e re me
    · exact red (by decide) et hq hall e re me
    · exact dir (w := .w64) (by decide) et hq e re me

end Takum
