import Verif.Lemmas.TestInt
import Verif.Lemmas.MonoConv
import Verif.Lemmas.RoundTrip
import Verif.Lemmas.LogArith

/-!
# Tests of the arithmetic of logarithmic takums: lemmas

Two encodings of numbers `p` and `q` that are close to each other differ by at most one unit.
-/

namespace Takum.Test
open Takum Spec

/-- `u` is one of the takums of sign `s` next to `q` (or `q` itself). -/
structure Next {w : W} (s : Bool) (q : ℚ) (u : T w) : Prop where
  reg : Regular u
  sign : u.msb = s
  order : ∀ t : T w, Regular t → t.msb = s →
    (sg s * ell t ≤ sg s * q → t.toInt ≤ u.toInt) ∧ (sg s * q ≤ sg s * ell t → u.toInt ≤ t.toInt)

/-- If two of them are not neighbours, there is a takum between the numbers. -/
theorem Next.middle {w : W} {s : Bool} {p q : ℚ} {u v : T w} (hu : Next s q u) (hv : Next s p v)
    (h : ¬ |u.toInt - v.toInt| ≤ 1) :
    ∃ t : T w, Regular t ∧ t.msb = s ∧ t ≠ u ∧ t ≠ v ∧ |q - ell t| + |p - ell t| = |p - q| := by
  have h8 := w.n_pos
  have h1 : 1 ≤ w.n := by omega
  obtain ⟨u1, u2⟩ := toInt_InW u
  obtain ⟨v1, v2⟩ := toInt_InW v
  have nn : (nar w.n).toInt = -2 ^ (w.n - 1) := nar_toInt (by omega)
  have z : (0#w.n).toInt = 0 := by simp
  have neg : ∀ x : T w, x.msb = true ↔ x.toInt < 0 := by
    intro x; rw [BitVec.msb_eq_toInt]; simp
  have un : u.toInt ≠ -2 ^ (w.n - 1) := fun h => hu.reg.2 (BitVec.eq_of_toInt_eq (h.trans nn.symm))
  have vn : v.toInt ≠ -2 ^ (w.n - 1) := fun h => hv.reg.2 (BitVec.eq_of_toInt_eq (h.trans nn.symm))
  have u0 : u.toInt ≠ 0 := fun h => hu.reg.1 (BitVec.eq_of_toInt_eq (h.trans z.symm))
  have v0 : v.toInt ≠ 0 := fun h => hv.reg.1 (BitVec.eq_of_toInt_eq (h.trans z.symm))
  have suv : u.toInt < 0 ↔ v.toInt < 0 := by rw [← neg, ← neg, hu.sign, hv.sign]
  have mk : ∀ i : ℤ, -2 ^ (w.n - 1) < i → i < 2 ^ (w.n - 1) → i ≠ 0 → (i < 0 ↔ u.toInt < 0) → i ≠ u.toInt → i ≠ v.toInt →
      ∃ t : T w, Regular t ∧ t.msb = s ∧ t ≠ u ∧ t ≠ v ∧ t.toInt = i := by
    intro i a b c d e f
    have ei := toInt_ofInt_W (w := w) (z := i) ⟨a.le, b⟩
    refine ⟨BitVec.ofInt w.n i, ⟨fun h => ?_, fun h => ?_⟩, ?_, fun h => ?_, fun h => ?_, ei⟩
    · rw [h, z] at ei; exact c ei.symm
    · rw [h, nn] at ei; omega
    · rw [← hu.sign, Bool.eq_iff_iff, neg, neg, ei]; exact d
    · rw [h] at ei; exact e ei.symm
    · rw [h] at ei; exact f ei.symm
  have sgabs : ∀ x y : ℚ, |x - y| = |sg s * x - sg s * y| := by
    intro x y; rw [← mul_sub, sg_abs]
  rw [abs_le, not_and_or] at h
  rcases lt_or_gt_of_ne (show u.toInt ≠ v.toInt by intro e; rw [e] at h; omega) with hlt | hlt
  · obtain ⟨t, a, b, c, d, e⟩ := mk (u.toInt + 1) (by omega) (by omega) (by omega) (by omega) (by omega) (by omega)
    refine ⟨t, a, b, c, d, ?_⟩
    have x1 : sg s * q < sg s * ell t := by
      by_contra hc; have := (hu.order t a b).1 (not_lt.mp hc); omega
    have x2 : sg s * ell t < sg s * p := by
      by_contra hc; have := (hv.order t a b).2 (not_lt.mp hc); omega
    rw [sgabs, sgabs p, sgabs p, abs_of_neg (by linarith), abs_of_pos (by linarith), abs_of_pos (by linarith)]
    ring
  · obtain ⟨t, a, b, c, d, e⟩ := mk (v.toInt + 1) (by omega) (by omega) (by omega) (by omega) (by omega) (by omega)
    refine ⟨t, a, b, c, d, ?_⟩
    have x1 : sg s * ell t < sg s * q := by
      by_contra hc; have := (hu.order t a b).2 (not_lt.mp hc); omega
    have x2 : sg s * p < sg s * ell t := by
      by_contra hc; have := (hv.order t a b).1 (not_lt.mp hc); omega
    rw [sgabs, sgabs p, sgabs p, abs_of_pos (by linarith), abs_of_neg (by linarith), abs_of_neg (by linarith)]
    ring

/-- The result of the encoder for the number `q`. -/
theorem enc_next {w : W} (s : Bool) {l : Fl} {q : ℚ} (hl : l.Is q) (hq : w.encF.Rep q) :
    ∃ u : T w, fromSAndL w s l = .ok u ∧ Next s q u ∧
      ∀ t : T w, Regular t → t.msb = s → |ell u - q| ≤ |ell t - q| + 2 / 2 ^ w.grid := by
  obtain ⟨u, e, r, m, a⟩ := enc_almost (w := w) s hl hq
  exact ⟨u, e, ⟨r, m, fun t ht hs => enc_faithful s hl hq e ht hs⟩, a⟩

theorem rq_next {w : W} (s : Bool) {l : Fl} {x : ℚ} (hl : l.Is (w.lF.rq x)) :
    ∃ u : T w, fromSAndL w s l = .ok u ∧ Next s x u := by
  obtain ⟨u, e, h, -⟩ := enc_next (w := w) s hl (lF_rep_encF (lF_rq_rep w x))
  exact ⟨u, e, h.reg, h.sign, fun t ht hs => faithful_rq s hl e ht hs⟩

/-- The result of the conversion from `long double` whose `ℓ` is `p`. -/
structure Conv {w : W} (s : Bool) (p : ℚ) (v : T w) : Prop where
  next : Next s p v
  close : ∀ t : T w, Regular t → t.msb = s → |ell v - ell t| ≤ 4 * (|p - ell t| + 1 / 2 ^ 64)
  close64 : w = .w64 → ∀ t : T w, Regular t → t.msb = s → |ell v - p| ≤ |ell t - p| + 2 / 2 ^ 64

theorem gap_pos {w : W} (hw : w ≠ .w64) (x : ℚ) : 4 * ((0 : ℚ) + 1 / 2 ^ 64) < max 1 ((|x| + 1) / 2) / 2 ^ (w.n - 5) := by
  have : (1 : ℚ) / 2 ^ (w.n - 5) ≤ max 1 ((|x| + 1) / 2) / 2 ^ (w.n - 5) := by
    gcongr; exact le_max_left _ _
  refine lt_of_lt_of_le ?_ this
  cases w <;> norm_num [W.n]

theorem logEnc_conv (w : W) (s : Bool) {l : Fl} {p : ℚ} (hl : l.Is p) (hp : x80.Rep p) (hb : |p| ≤ 2 ^ 101) :
    ∃ v : T w, logEnc .ext w s l = .ok v ∧ Conv s p v := by
  by_cases hw : w = .w64
  · subst hw
    obtain ⟨v, e, n, a⟩ := enc_next (w := .w64) s hl hp
    refine ⟨v, e, n, fun t ht hs => ?_, fun _ => a⟩
    have h1 := a t ht hs
    have h2 := abs_sub_le (ell v) p (ell t)
    rw [abs_sub_comm (ell t)] at h1
    have h3 : (2 : ℚ) / 2 ^ W.w64.grid = 2 * (1 / 2 ^ 64) := by norm_num [W.grid]
    have h4 := abs_nonneg (p - ell t)
    rw [h3] at h1
    linarith [show (0 : ℚ) < 1 / 2 ^ 64 by positivity]
  · obtain ⟨v, e, r, m⟩ := logEnc_regular .ext w s hl (by cases w <;> exact hp) hb
    refine ⟨v, e, ⟨r, m, fun t ht hs => ?_⟩, fun t ht hs => ?_, fun h => absurd h hw⟩
    · -- the takum t itself is the encoding of its ℓ
      have hr : x80.Rep (ell t) := by
        have := (ell_in w t).1
        cases w <;> exact this.mono (by decide) (by decide)
      obtain ⟨t', et', rt', st', ct'⟩ := logEnc_close .ext (by decide) w (by intro h; cases h) ht (Fl.Is.mk false (ell t)) hr
        (η := 0) (by simp)
      have : t' = t := by
        by_contra hc
        have g := ell_gap (w := w) (a := t) (b := t') st'.symm (fun h => hc h.symm)
        rw [if_neg hw] at ct'
        exact absurd (g.trans ct') (not_le.mpr (gap_pos hw _))
      subst this
      have hb' : |ell t'| ≤ 2 ^ 101 := (abs_ell_lt t').le.trans (by norm_num)
      rw [hs] at et'
      have F : logF .ext w = x80 := by cases w <;> rfl
      constructor <;> intro h
      · obtain ⟨a, b, e1, e2, e3⟩ := logEnc_mono .ext w s (Fl.Is.mk false (ell t')) hl (F ▸ hr) (F ▸ hp) hb' hb h
        rw [et'] at e1; rw [e] at e2
        obtain rfl := Except.ok.inj e1; obtain rfl := Except.ok.inj e2; exact e3
      · obtain ⟨a, b, e1, e2, e3⟩ := logEnc_mono .ext w s hl (Fl.Is.mk false (ell t')) (F ▸ hp) (F ▸ hr) hb hb' h
        rw [e] at e1; rw [et'] at e2
        obtain rfl := Except.ok.inj e1; obtain rfl := Except.ok.inj e2; exact e3
    · obtain ⟨v', e', -, -, c⟩ := logEnc_close .ext (by decide) w (by intro h; cases h) ht hl hp (le_refl |p - ell t|)
      rw [hs, e] at e'
      obtain rfl := Except.ok.inj e'
      rw [if_neg hw] at c
      exact c

/-- Widths below 64 bits: results for numbers this close differ by at most one unit. -/
theorem near_small {w : W} (hw : w ≠ .w64) {s : Bool} {p q : ℚ} {u v : T w} (hu : Next s q u) (hv : Conv s p v)
    (h : |p - q| ≤ (1 + |q|) / 2 ^ 33) : |u.toInt - v.toInt| ≤ 1 := by
  by_contra hc
  obtain ⟨t, rt, st, tu, tv, hd⟩ := hu.middle hv.next hc
  have g := ell_gap (w := w) (a := t) (b := v) (st.trans hv.next.sign.symm) tv
  have c := hv.close t rt st
  have h1 := abs_nonneg (q - ell t)
  have h2 : |q| ≤ |ell t| + |q - ell t| := by
    have := abs_add_le (ell t) (q - ell t); rwa [add_sub_cancel] at this
  have h3 := abs_nonneg (p - ell t)
  have hg : (|ell t| + 1) / 2 / 2 ^ 27 ≤ |ell v - ell t| := by
    refine le_trans ?_ g
    have h4 : (2 : ℚ) ^ (w.n - 5) ≤ 2 ^ 27 := pow_le_pow_right₀ (by norm_num) (by cases w <;> first | decide | exact absurd rfl hw)
    gcongr
    exact le_max_right _ _
  have h5 := abs_nonneg (ell t)
  norm_num at hg c h
  linarith

/-- 64 bits. -/
theorem near_big {s : Bool} {p q : ℚ} {u v : T .w64} (hu : Next s q u)
    (hu' : ∀ t : T .w64, Regular t → t.msb = s → |ell u - q| ≤ |ell t - q| + 2 / 2 ^ 64)
    (hv : Conv s p v) (h : |p - q| ≤ (20 + 8 * |q|) / 2 ^ 64) : |u.toInt - v.toInt| ≤ 1 := by
  by_contra hc
  obtain ⟨t, rt, st, tu, tv, hd⟩ := hu.middle hv.next hc
  have g1 := ell_gap (w := .w64) (a := t) (b := v) (st.trans hv.next.sign.symm) tv
  have g2 := ell_gap (w := .w64) (a := t) (b := u) (st.trans hu.sign.symm) tu
  have c1 := hv.close64 rfl t rt st
  have c2 := hu' t rt st
  have d1 := abs_sub_le (ell v) p (ell t)
  have d2 := abs_sub_le (ell u) q (ell t)
  rw [abs_sub_comm (ell t)] at c1 c2
  have h1 := abs_nonneg (p - ell t)
  have h2 : |q| ≤ |ell t| + |q - ell t| := by
    have := abs_add_le (ell t) (q - ell t); rwa [add_sub_cancel] at this
  have h5 := abs_nonneg (ell t)
  have e2 : W.n .w64 - 5 = 59 := rfl
  rw [e2, div_le_iff₀ (by positivity), max_le_iff] at g1 g2
  norm_num at g1 g2 c1 c2 h
  rcases le_or_gt |ell t| 1 with hx | hx <;> linarith

/-- The largest takum of 64 bits. -/
theorem top_facts {t : T .w64} (h : t.toInt = 2 ^ 63 - 1) : t = 0x7fffffffffffffff#64 ∧ 254 ≤ ell t := by
  have : t = 0x7fffffffffffffff#64 := BitVec.eq_of_toInt_eq (h.trans (by decide))
  subst this
  exact ⟨rfl, by decide +kernel⟩

theorem not_top {p : ℚ} {v : T .w64} (hv : Next false p v) (h : p ≤ 254) : v.toInt ≠ 2 ^ 63 - 1 := by
  intro e
  have h1 : (254 : ℚ) ≤ ell (0x7ffffffffffffffe#64 : T .w64) := by decide +kernel
  have := (hv.order (0x7ffffffffffffffe#64) ⟨by decide, by decide⟩ (by decide)).2 (by simp [sg]; linarith)
  rw [e] at this
  exact absurd this (by decide)

/-- The largest takum as conversion of a number close to another takum. -/
theorem top_exact {s : Bool} {p : ℚ} {u v : T .w64} (hu : Regular u) (su : u.msb = s) (hv : Conv s p v)
    (h : |p - ell u| ≤ (20 + 7 * |ell u|) / 2 ^ 64) (hm : v.toInt = 2 ^ 63 - 1) : u = v := by
  by_contra hc
  have g := ell_gap (w := .w64) (a := v) (b := u) (hv.next.sign.trans su.symm) (fun h => hc h.symm)
  have c := hv.close64 rfl u hu su
  have d := abs_sub_le (ell v) p (ell u)
  have e := (top_facts hm).2
  have b := abs_ell_le u
  rw [abs_sub_comm (ell u)] at c g
  have e2 : W.n .w64 - 5 = 59 := rfl
  have e3 := le_abs_self (ell v)
  rw [e2, div_le_iff₀ (by positivity), max_le_iff] at g
  norm_num at g c h
  linarith

/-! ## The reference -/

/-- The conversion of a reference value `z`, whose logarithm is `l` times that of the base. -/
theorem ref_conv {L : Libm} (hA : L.Accurate) (w : W) {f : Fl} {z : ℚ} (hf : f.Is z) (hz : z ≠ 0) (hi : x80.In z)
    {l lam : ℚ} (hv : |Real.log |(z : ℝ)| - (l : ℝ) * Real.log (sqe x80)| ≤ lam) (hl : |l| ≤ 700) (h1 : lam ≤ 1) :
    ∃ (p : ℚ) (v : T w), fromExt L .log w f = .ok v ∧ Conv (decide (z < 0)) p v ∧
      |p - l| ≤ 2.0001 * lam + 5.4001 * |l| / 2 ^ 64 := by
  have hF : logF .ext w = x80 := by cases w <;> rfl
  have zp : 0 < |z| := abs_pos.mpr hz
  have hin : x80.In |z| := ⟨hi.1.abs, by rw [abs_abs]; exact hi.2⟩
  obtain ⟨r, r1, r2, r3⟩ := hA.log x80 (.inr rfl) _ zp hin
  have hv' : |Real.log ((|z| : ℚ) : ℝ) - (l : ℝ) * Real.log (sqe x80)| ≤ lam := by rw [Rat.cast_abs]; exact hv
  have key := recover (sqe_log (.inr rfl)) hv' r3 (by positivity)
  have hlam : 0 ≤ lam := by
    have : (0 : ℝ) ≤ lam := (abs_nonneg _).trans hv
    exact_mod_cast this
  have hη : |2 * r - l| ≤ 2.0001 * lam + 5.4001 * |l| / 2 ^ 64 := by
    have k2 : (|2 * r - l| : ℚ) ≤ (|l| * (kap x80 * (1 + 1 / 2 ^ 49)) + 2 * lam) * (1 + 4 / 2 ^ x80.prec) + 4 / 2 ^ x80.prec * |l| := by
      apply (Rat.cast_le (K := ℝ)).mp
      push_cast
      exact key
    refine k2.trans ?_
    have h0 := abs_nonneg l
    norm_num [kap, x80]
    linarith
  have hr100 : |r| ≤ 2 ^ 100 := by
    have : |2 * r| ≤ 1000 := by
      have := abs_add_le (2 * r - l) l
      rw [sub_add_cancel] at this
      norm_num at hη
      linarith
    rw [abs_mul, abs_two] at this
    linarith [show (1000 : ℚ) ≤ 2 ^ 100 by norm_num]
  obtain ⟨l1, l2⟩ := twoLog_is (L := L) (.inr rfl) hf hz r1 r2 hr100
  have hb : |2 * r| ≤ 2 ^ 101 := by
    rw [abs_mul, abs_two]; linarith [show (2 : ℚ) * 2 ^ 100 = 2 ^ 101 by norm_num]
  obtain ⟨v, e, c⟩ := logEnc_conv w (decide (z < 0)) l1 l2.1 hb
  refine ⟨2 * r, v, ?_, c, hη⟩
  show logFrom L .ext w f = _
  rw [logFrom_eq L .ext w hf hz, hF]; exact e

/-- The `long double` made from a takum. -/
theorem arg_log {L : Libm} (hL : L.Powers) (hA : L.Accurate) {w : W} {t : T w} (h : Regular t) :
    ∃ (f : Fl) (v : ℚ), toExt L .log w t = .ok f ∧ f.Is (sg t.msb * v) ∧ x80.In (sg t.msb * v) ∧ 0 < v ∧
      |Real.log v - (ell t : ℝ) * Real.log (sqe x80)| ≤ (4.01 / 2 ^ 64 : ℚ) ∧
      (2 : ℚ) ^ (-300 : ℤ) ≤ v ∧ v ≤ (2 : ℚ) ^ (300 : ℤ) := by
  have hp : powF .ext w = x80 := by cases w <;> rfl
  obtain ⟨f, v, e, i, n, pv, b⟩ := logTo_log hL hA .ext (by decide) w (by intro h; cases h) h
  have hlam : lamOf .ext w = 4.01 / 2 ^ 64 := by cases w <;> rfl
  rw [hp, hlam] at b
  refine ⟨f, v, e, i, n, pv, b, ?_⟩
  have e' : eTo L .log w t = .ok f := by rw [← toExt_eTo]; exact e
  obtain ⟨f', v', e2, i2, -, -, -, b2, b3, -⟩ := eTo_fin hL .log w h.2
  rw [e'] at e2
  obtain rfl := Except.ok.inj e2
  have := i2.unique i
  rw [this, sg_abs, abs_of_pos pv] at b2 b3
  exact ⟨b3 h.1, b2⟩

end Takum.Test
