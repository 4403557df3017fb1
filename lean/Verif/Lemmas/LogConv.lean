import Verif.LibmSpec
import Verif.Lemmas.LinArith

/-! # Lemmas for the conversions between floats and logarithmic takums -/

namespace Takum
open Spec

theorem In_two {F : Fmt} (hF : F = b64 ∨ F = x80) {r : ℚ} (h : F.In r) (hr : |r| ≤ 2 ^ 100) : F.In (2 * r) := by
  refine ⟨?_, ?_⟩
  · have := h.1.scale 1 (by norm_num)
    rw [zpow_one, mul_comm] at this; exact this
  · rw [abs_mul, abs_two]
    have h1 : (2 : ℚ) * 2 ^ 100 < (2 : ℚ) ^ (200 : ℤ) := by norm_num
    have h2 : (2 : ℚ) ^ (200 : ℤ) ≤ (2 : ℚ) ^ F.emax := by
      apply zpow_le_zpow_right₀ (by norm_num)
      rcases hF with rfl | rfl <;> decide
    linarith

theorem two_in {F : Fmt} (hF : F = b64 ∨ F = x80) : F.In ((2 : ℤ) : ℚ) := by
  rcases hF with rfl | rfl
  · exact ⟨⟨2, 0, by norm_num, by decide, by decide⟩, by decide +kernel⟩
  · exact ⟨⟨2, 0, by norm_num, by decide, by decide⟩, by decide +kernel⟩

theorem twoLog_is {L : Libm} {F : Fmt} (hF : F = b64 ∨ F = x80) {f : Fl} {v r : ℚ} (hf : f.Is v) (hv : v ≠ 0)
    (hr : Fl.Is (L.log F (.num |v|)) r) (hi : F.In r) (hb : |r| ≤ 2 ^ 100) :
    (twoLog L F f).Is (2 * r) ∧ F.In (2 * r) := by
  have h2 := In_two hF hi hb
  have e : F.rq (((2 : ℤ) : ℚ) * r) = 2 * r := by push_cast; exact F.rq_of_rep h2.1
  refine ⟨?_, h2⟩
  unfold twoLog
  have ha : f.abs = .num |v| := hf.abs.eq_num (abs_ne_zero.mpr hv)
  rw [ha]
  have := Fl.Is.mul (F := F) (Fl.Is.ofInt_in (two_in hF)) hr (by rw [e]; exact h2.2)
  rwa [e] at this

/-- Narrowing keeps regular takums regular. -/
theorem reduce_keep {a b : W} (h : b.n < a.n) {t : T a} (ht : Regular t) :
    ∃ v : T b, reduce a b t = .ok v ∧ Regular v ∧ v.msb = t.msb := by
  have hb := b.n_pos
  refine ⟨_, reduce_regular h ht, ?_, ?_⟩
  · exact regular_mkT (by omega) _ (nearK_pos _ _) (nearK_lt (by omega) _)
  · exact mkT_msb (by omega) _ (nearK_lt (by omega) _)

/-- Encoding with 64 bits and narrowing. -/
theorem enc_reduce {w : W} (h : w.n < 64) (s : Bool) {l : Fl} {q : ℚ} (hl : l.Is q) (hq : x80.Rep q) :
    ∃ t : T w, (do reduce .w64 w (← fromSAndL .w64 s l)) = .ok t ∧ Regular t ∧ t.msb = s := by
  obtain ⟨t, e, r, hs⟩ := enc_regular (w := .w64) s hl hq
  obtain ⟨v, e', r', hs'⟩ := reduce_keep (a := .w64) h r
  exact ⟨v, by rw [e, ok_bind, e'], r', by rw [hs', hs]⟩

theorem cast32_is {q : ℚ} {l : Fl} (hl : l.Is q) (hq : |q| ≤ 2 ^ 101) :
    (Fl.cast b32 l).Is (b32.rq q) := by
  apply hl.cast
  refine lt_of_le_of_lt (b32.abs_rq_le (b := 2 ^ 101) (by decide) ?_ hq) (by decide +kernel)
  have : b32.Rep ((2 : ℚ) ^ (101 : ℤ)) := Fmt.Rep.zpow (by decide) (by decide)
  exact_mod_cast this

theorem logFrom_zero (L : Libm) (A : Src) (w : W) (s : Bool) : logFrom L A w (.zero s) = .ok 0#w.n := by
  cases A <;> rfl

theorem logFrom_nonfinite (L : Libm) (A : Src) (w : W) {f : Fl} (hf : f.isfinite = false) :
    logFrom L A w f = .ok (nar w.n) := by
  have hN := NAR_eq (show 1 ≤ w.n by have := w.n_pos; omega)
  have he : Fl.eq f (.zero false) = false := by cases f <;> simp_all [Fl.isfinite, Fl.eq]
  cases A
  · show fromFloat32 L w f = _; unfold fromFloat32; rw [he, hf, hN]; rfl
  · show fromFloat64 L w f = _; unfold fromFloat64; rw [he, hf, hN]; rfl
  · show fromExtended L w f = _; unfold fromExtended; rw [he, hf, hN]; rfl

/-- The floating type in which the logarithm is computed. -/
def logF : Src → W → Fmt
  | .f32, .w64 => x80
  | .f32, _ => b64
  | _, _ => x80

theorem logF_std (A : Src) (w : W) : logF A w = b64 ∨ logF A w = x80 := by cases A <;> cases w <;> simp [logF]

theorem logF_in (A : Src) (w : W) {v : ℚ} (h : A.fmt.In v) : (logF A w).In v := by
  cases A
  · cases w
    · exact Fmt.b32_b64 h
    · exact Fmt.b32_b64 h
    · exact Fmt.b32_b64 h
    · exact Fmt.b32_x80 h
  · exact Fmt.b64_x80 h
  · exact h

/-- What is done with `ℓ = 2 log |f|`. -/
def logEnc (A : Src) (w : W) (s : Bool) (l : Fl) : C (T w) :=
  match A, w with
  | .f32, .w8 => fromSAndL .w8 s (Fl.cast b32 l)
  | .f32, w => fromSAndL w s l
  | .f64, .w8 => do reduce .w64 .w8 (← fromSAndL .w64 s l)
  | .f64, .w16 => do reduce .w64 .w16 (← fromSAndL .w64 s l)
  | .f64, w => fromSAndL w s l
  | .ext, .w8 => do reduce .w64 .w8 (← fromSAndL .w64 s l)
  | .ext, .w16 => do reduce .w64 .w16 (← fromSAndL .w64 s l)
  | .ext, .w32 => do reduce .w64 .w32 (← fromSAndL .w64 s l)
  | .ext, .w64 => fromSAndL .w64 s l

theorem logFrom_eq (L : Libm) (A : Src) (w : W) {f : Fl} {v : ℚ} (hf : f.Is v) (hv : v ≠ 0) :
    logFrom L A w f = logEnc A w (decide (v < 0)) (twoLog L (logF A w) f) := by
  have e := hf.eq_num hv
  subst e
  have h1 : Fl.eq (.num v) (.zero false) = false := by simp [Fl.eq, Fl.toQ, hv]
  have h2 : Fl.lt (.num v) (.zero false) = decide (v < 0) := rfl
  cases A
  · show fromFloat32 L w _ = _; unfold fromFloat32; rw [h1, h2]; cases w <;> rfl
  · show fromFloat64 L w _ = _; unfold fromFloat64; rw [h1, h2]; cases w <;> rfl
  · show fromExtended L w _ = _; unfold fromExtended; rw [h1, h2]; cases w <;> rfl

theorem logEnc_regular (A : Src) (w : W) (s : Bool) {l : Fl} {q : ℚ} (hl : l.Is q) (hq : (logF A w).Rep q) (hb : |q| ≤ 2 ^ 101) :
    ∃ t : T w, logEnc A w s l = .ok t ∧ Regular t ∧ t.msb = s := by
  cases A
  · cases w
    · exact enc_regular (w := .w8) s (cast32_is hl hb) ((b32.rq_rep (by decide) q).mono (by decide) (by decide))
    · exact enc_regular (w := .w16) s hl hq
    · exact enc_regular (w := .w32) s hl (hq.mono (by decide) (by decide))
    · exact enc_regular (w := .w64) s hl hq
  · cases w
    · exact enc_reduce (w := .w8) (by decide) s hl hq
    · exact enc_reduce (w := .w16) (by decide) s hl hq
    · exact enc_regular (w := .w32) s hl hq
    · exact enc_regular (w := .w64) s hl hq
  · cases w
    · exact enc_reduce (w := .w8) (by decide) s hl hq
    · exact enc_reduce (w := .w16) (by decide) s hl hq
    · exact enc_reduce (w := .w32) (by decide) s hl hq
    · exact enc_regular (w := .w64) s hl hq

theorem logFrom_regular {L : Libm} (hL : L.Logs) (A : Src) (w : W) {f : Fl} {v : ℚ} (hf : f.Is v) (hv : v ≠ 0)
    (h : A.fmt.In v) : ∃ t : T w, logFrom L A w f = .ok t ∧ Regular t ∧ t.msb = decide (v < 0) := by
  have hi := logF_in A w h
  obtain ⟨r, h1, h2, h3⟩ := hL.finite _ (logF_std A w) |v| (abs_pos.mpr hv) ⟨hi.1.abs, by rw [abs_abs]; exact hi.2⟩
  obtain ⟨t1, t2⟩ := twoLog_is (logF_std A w) hf hv h1 h2 h3
  rw [logFrom_eq L A w hf hv]
  apply logEnc_regular A w _ t1 t2.1
  rw [abs_mul, abs_two]; linarith [show (2 : ℚ) ^ 101 = 2 * 2 ^ 100 by norm_num]

/-! ### Decoding -/

/-- The base passed to `pow`: `SQRTE` converted to the type. -/
def sqe (F : Fmt) : ℚ := F.rq (x80.rq (1.6487212707001281468486507878141635716538 : ℚ))

theorem sqe_facts {F : Fmt} (hF : F = b32 ∨ F = b64 ∨ F = x80) : 1 < sqe F ∧ sqe F < 2 ∧ F.In (sqe F) := by
  have h : 1 < sqe F ∧ sqe F < 2 := by rcases hF with rfl | rfl | rfl <;> decide +kernel
  refine ⟨h.1, h.2, Fmt.rq_rep _ (by rcases hF with rfl | rfl | rfl <;> decide) _, ?_⟩
  rw [abs_of_pos (by show 0 < sqe F; linarith)]
  refine lt_trans h.2 ?_
  rcases hF with rfl | rfl | rfl <;> decide +kernel

theorem sqe_x80 : SQRTE = .num (sqe x80) := by
  unfold SQRTE sqe
  rw [x80.rq_of_rep (x80.rq_rep (by decide) _)]

theorem sqe_cast {F : Fmt} (hF : F = b32 ∨ F = b64 ∨ F = x80) : Fl.cast F SQRTE = .num (sqe F) := by
  obtain ⟨h1, h2, h3⟩ := sqe_facts hF
  have : (Fl.cast F SQRTE).Is (sqe F) := by
    unfold SQRTE sqe
    apply Fl.Is.cast (Fl.Is.num (by decide +kernel))
    exact h3.2
  exact this.eq_num (by linarith)

/-- The type in which `pow` is computed. -/
def powF : Src → W → Fmt
  | .f32, _ => b32
  | .f64, .w8 => x80
  | .f64, _ => b64
  | .ext, _ => x80

/-- The exponent passed to `pow`. -/
def expo : Src → W → Fl → Fl
  | .f32, .w32, l => Fl.cast b32 l
  | .f32, .w64, l => Fl.cast b32 l
  | .f64, .w64, l => Fl.cast b64 l
  | _, _, l => l

theorem powF_std (A : Src) (w : W) : powF A w = b32 ∨ powF A w = b64 ∨ powF A w = x80 := by
  cases A <;> cases w <;> simp [powF]

theorem logTo_eq (L : Libm) (A : Src) (w : W) {t : T w} {l : Fl} (h : toL w t = .ok l) :
    logTo L A w t = .ok (Fl.cast A.fmt (Fl.mul (powF A w) (Fl.ofInt (powF A w) (signFactor t))
      (L.pow (powF A w) (.num (sqe (powF A w))) (expo A w l)))) ∨
    (powF A w = A.fmt ∧ logTo L A w t = .ok (Fl.mul (powF A w) (Fl.ofInt (powF A w) (signFactor t))
      (L.pow (powF A w) (.num (sqe (powF A w))) (expo A w l)))) := by
  have e32 := sqe_cast (F := b32) (by simp)
  have e64 := sqe_cast (F := b64) (by simp)
  cases A
  · right
    refine ⟨rfl, ?_⟩
    show toFloat32 L w t = _
    unfold toFloat32; rw [h, ok_bind, e32]; cases w <;> rfl
  · show toFloat64 L w t = _ ∨ _ ∧ toFloat64 L w t = _
    unfold toFloat64; rw [h, ok_bind, e64, sqe_x80]
    cases w
    · left; rfl
    · right; exact ⟨rfl, rfl⟩
    · right; exact ⟨rfl, rfl⟩
    · right; exact ⟨rfl, rfl⟩
  · right
    refine ⟨rfl, ?_⟩
    show toExtended L w t = _
    unfold toExtended; rw [h, ok_bind, sqe_x80]; rfl

theorem expo_inf (A : Src) (w : W) : expo A w (.inf true) = .inf true := by cases A <;> cases w <;> rfl
theorem expo_nan (A : Src) (w : W) : expo A w .nan = .nan := by cases A <;> cases w <;> rfl

theorem mul_nan_right (F : Fmt) (x : Fl) : Fl.mul F x .nan = .nan := by cases x <;> rfl
theorem mul_nan_left (F : Fmt) (x : Fl) : Fl.mul F .nan x = .nan := by cases x <;> rfl

theorem logTo_zero {L : Libm} (hL : L.Powers) (A : Src) (w : W) : logTo L A w 0#w.n = .ok (.zero false) := by
  obtain ⟨h1, h2, h3⟩ := sqe_facts (powF_std A w)
  have hs : signFactor (0#w.n) = 0 := by simp [signFactor, b2i]
  have hz : ∀ F, Fl.mul F (Fl.ofInt F 0) (.zero false) = .zero false := by
    intro F; simp [Fl.ofInt, Fl.round, Fl.mul, Fl.toQ, Fl.sgn]
  rcases logTo_eq L A w (toL_zero w) with e | ⟨-, e⟩ <;>
    rw [e, expo_inf, hL.neg_inf _ _ h1, hs, hz] <;> rfl

theorem logTo_nar {L : Libm} (hL : ∀ F x, x ≠ Fl.num 1 → L.pow F x .nan = .nan) (A : Src) (w : W) :
    logTo L A w (nar w.n) = .ok .nan := by
  obtain ⟨h1, h2, h3⟩ := sqe_facts (powF_std A w)
  have hb : Fl.num (sqe (powF A w)) ≠ .num 1 := by intro h; rw [Fl.num.injEq] at h; linarith
  rcases logTo_eq L A w (toL_nar w) with e | ⟨-, e⟩ <;>
    rw [e, expo_nan, hL _ _ hb, mul_nan_right] <;> rfl

theorem signFactor_regular {w : W} {t : T w} (h : Regular t) : signFactor t = if t.msb then -1 else 1 := by
  have : (t != 0#w.n) = true := by simp [h.1]
  unfold signFactor; rw [isNeg_eq, this]
  cases t.msb <;> rfl

theorem ofInt_unit {F : Fmt} (hF : F = b32 ∨ F = b64 ∨ F = x80) (s : Bool) :
    Fl.ofInt F (if s then -1 else 1) = .num (sg s) := by
  rcases hF with rfl | rfl | rfl <;> cases s <;> decide +kernel

theorem sgn_cast (F : Fmt) {x : Fl} (h : x.isnan = false) (h0 : x ≠ .num 0) :
    (Fl.cast F x).sgn = x.sgn ∧ (Fl.cast F x).isnan = false := by
  cases x with
  | nan => simp [Fl.isnan] at h
  | inf s => exact ⟨rfl, rfl⟩
  | zero s => exact ⟨rfl, rfl⟩
  | num q =>
    have hq : q ≠ 0 := by rintro rfl; exact h0 rfl
    refine ⟨Fl.round_sgn hq, ?_⟩
    show (Fl.round F false q).isnan = false
    unfold Fl.round Fl.mk
    rw [if_neg hq]; split_ifs <;> rfl

theorem mul_unit_sgn (F : Fmt) (s : Bool) {y : Fl} (h : y.isnan = false) (h0 : y ≠ .num 0) :
    (Fl.mul F (.num (sg s)) y).isnan = false ∧ (Fl.mul F (.num (sg s)) y).sgn = (s != y.sgn) ∧
      Fl.mul F (.num (sg s)) y ≠ .num 0 := by
  have hs : (Fl.num (sg s)).sgn = s := by cases s <;> simp [sg, Fl.sgn]
  have hr : ∀ z q, (Fl.round F z q).isnan = false ∧ Fl.round F z q ≠ .num 0 := by
    intro z q
    unfold Fl.round Fl.mk
    split_ifs <;> simp_all [Fl.isnan]
  cases y with
  | nan => simp [Fl.isnan] at h
  | inf b => refine ⟨rfl, ?_, by simp [Fl.mul]⟩; show (Fl.inf _).sgn = _; rw [hs]; cases s <;> cases b <;> rfl
  | zero b =>
    have e : Fl.mul F (.num (sg s)) (.zero b) = .zero (xor s b) := by
      show Fl.round F _ _ = _
      rw [hs]; simp [Fl.round, Fl.toQ, Fl.sgn]
    rw [e]; refine ⟨rfl, ?_, by simp⟩; cases s <;> cases b <;> rfl
  | num q =>
    have hq : q ≠ 0 := by rintro rfl; exact h0 rfl
    have e : Fl.mul F (.num (sg s)) (.num q) = Fl.round F (xor (Fl.num (sg s)).sgn (Fl.num q).sgn) (sg s * q) := rfl
    rw [e]
    refine ⟨(hr _ _).1, ?_, (hr _ _).2⟩
    rw [Fl.round_sgn (by cases s <;> simp [sg, hq])]
    cases s
    · simp [sg, Fl.sgn]
    · simp only [sg, if_true, Fl.sgn, Bool.true_bne]
      rw [Bool.eq_iff_iff]
      simp only [decide_eq_true_eq, Bool.not_eq_true', decide_eq_false_iff_not, not_lt]
      constructor
      · intro h; linarith
      · intro h; have := lt_of_le_of_ne h (Ne.symm hq); linarith

theorem abs_ell_le {w : W} (t : T w) : |ell t| ≤ 255 := by
  have h5 : 5 ≤ w.n := by have := w.n_pos; omega
  rw [ell_sg h5, sg_abs, abs_le]
  exact ⟨psi_ge (pos_nonneg t) (pos_lt h5 t), (psi_lt_255 (pos_nonneg t) (pos_lt h5 t)).le⟩

theorem expo_finite (A : Src) (w : W) {t : T w} {l : Fl} (hl : l.Is (ell t)) :
    ∃ q, (expo A w l).Is q ∧ (powF A w).In q ∧ |q| ≤ 255 ∧
      q = (match A, w with
        | .f32, .w32 => b32.rq (ell t)
        | .f32, .w64 => b32.rq (ell t)
        | .f64, .w64 => b64.rq (ell t)
        | _, _ => ell t) := by
  have hi := ell_in w t
  have hb : |ell t| ≤ 255 := abs_ell_le t
  have c32 : |b32.rq (ell t)| ≤ 255 := b32.abs_rq_le (by decide) ⟨255, 0, by norm_num, by decide, by decide⟩ hb
  have c64 : |b64.rq (ell t)| ≤ 255 := b64.abs_rq_le (by decide) ⟨255, 0, by norm_num, by decide, by decide⟩ hb
  have b1 : (255 : ℚ) < (2 : ℚ) ^ b32.emax := by decide +kernel
  have b2 : (255 : ℚ) < (2 : ℚ) ^ b64.emax := by decide +kernel
  have i32 : b32.In (b32.rq (ell t)) := ⟨b32.rq_rep (by decide) _, lt_of_le_of_lt c32 b1⟩
  have i64 : b64.In (b64.rq (ell t)) := ⟨b64.rq_rep (by decide) _, lt_of_le_of_lt c64 b2⟩
  cases A
  · cases w
    · exact ⟨_, hl, hi, hb, rfl⟩
    · exact ⟨_, hl, hi, hb, rfl⟩
    · exact ⟨_, hl.cast i32.2, i32, c32, rfl⟩
    · exact ⟨_, hl.cast i32.2, i32, c32, rfl⟩
  · cases w
    · exact ⟨_, hl, Fmt.b32_x80 hi, hb, rfl⟩
    · exact ⟨_, hl, Fmt.b32_b64 hi, hb, rfl⟩
    · exact ⟨_, hl, hi, hb, rfl⟩
    · exact ⟨_, hl.cast i64.2, i64, c64, rfl⟩
  · cases w
    · exact ⟨_, hl, Fmt.b32_x80 hi, hb, rfl⟩
    · exact ⟨_, hl, Fmt.b32_x80 hi, hb, rfl⟩
    · exact ⟨_, hl, Fmt.b64_x80 hi, hb, rfl⟩
    · exact ⟨_, hl, hi, hb, rfl⟩

theorem logTo_sign {L : Libm} (hL : L.Powers) (A : Src) (w : W) {t : T w} (h : Regular t) :
    ∃ f, logTo L A w t = .ok f ∧ f.isnan = false ∧ f.sgn = t.msb := by
  obtain ⟨l, e, hl⟩ := toL_regular w t h
  obtain ⟨q, hq, -⟩ := expo_finite A w hl
  obtain ⟨h1, h2, h3⟩ := sqe_facts (powF_std A w)
  obtain ⟨p1, p2, p3⟩ := hL.nonneg (powF A w) (powF_std A w) _ _ h1 h2 hq.isfinite
  set y := L.pow (powF A w) (.num (sqe (powF A w))) (expo A w l) with hy
  have hn : y.isnan = false := by cases hh : y <;> simp_all [Fl.isnan]
  have h0 : y ≠ .num 0 := by intro hh; rw [hh] at p3; exact p3.1 rfl
  obtain ⟨m1, m2, m3⟩ := mul_unit_sgn (powF A w) t.msb hn h0
  rw [p2] at m2
  rcases logTo_eq L A w e with e' | ⟨-, e'⟩
  · rw [signFactor_regular h, ofInt_unit (powF_std A w)] at e'
    obtain ⟨c1, c2⟩ := sgn_cast A.fmt m1 m3
    exact ⟨_, e', c2, by rw [c1, m2]; simp⟩
  · rw [signFactor_regular h, ofInt_unit (powF_std A w)] at e'
    exact ⟨_, e', m1, by rw [m2]; simp⟩

theorem rq_sg (F : Fmt) (s : Bool) (q : ℚ) : F.rq (sg s * q) = sg s * F.rq q := by
  cases s
  · simp [sg]
  · simp [sg, F.rq_neg]

theorem rq_mid {F : Fmt} (hF : F = b64 ∨ F = x80) {z : ℚ} (h1 : (2 : ℚ) ^ (-300 : ℤ) ≤ z) (h2 : z ≤ (2 : ℚ) ^ (300 : ℤ)) :
    (2 : ℚ) ^ (-300 : ℤ) ≤ F.rq z ∧ F.rq z ≤ (2 : ℚ) ^ (300 : ℤ) ∧ F.In (F.rq z) := by
  have hp : 1 ≤ F.prec ∧ F.emin ≤ -300 ∧ 300 < F.emax := by rcases hF with rfl | rfl <;> decide
  have a := F.le_rq hp.1 (Fmt.Rep.zpow hp.1 hp.2.1) h1
  have b := F.rq_le hp.1 (Fmt.Rep.zpow hp.1 (by omega)) h2
  refine ⟨a, b, F.rq_rep hp.1 _, ?_⟩
  rw [abs_of_pos (lt_of_lt_of_le (by positivity) a)]
  exact lt_of_le_of_lt b (zpow_lt_zpow_right₀ (by norm_num) hp.2.2)

theorem logTo_finite {L : Libm} (hL : L.Powers) (A : Src) (hA : A ≠ .f32) (w : W) {t : T w} (h : Regular t) :
    ∃ (l f : Fl) (z : ℚ), toL w t = .ok l ∧ l.Is (ell t) ∧
      L.pow (powF A w) (.num (sqe (powF A w))) (expo A w l) = .num z ∧
      (2 : ℚ) ^ (-300 : ℤ) ≤ z ∧ z ≤ (2 : ℚ) ^ (300 : ℤ) ∧ (powF A w).In z ∧
      logTo L A w t = .ok f ∧ f.Is (sg t.msb * A.fmt.rq z) ∧ A.fmt.In (sg t.msb * A.fmt.rq z) ∧
      (2 : ℚ) ^ (-300 : ℤ) ≤ A.fmt.rq z := by
  have pstd : powF A w = b64 ∨ powF A w = x80 := by cases A <;> cases w <;> simp_all [powF]
  have astd : A.fmt = b64 ∨ A.fmt = x80 := by cases A <;> simp_all [Src.fmt]
  obtain ⟨l, e, hl⟩ := toL_regular w t h
  obtain ⟨q, hq, hi, hb, -⟩ := expo_finite A w hl
  obtain ⟨h1, h2, h3⟩ := sqe_facts (powF_std A w)
  obtain ⟨z, z1, z2, z3, z4⟩ := hL.finite _ pstd _ _ q h1 h2 h3 hq hi hb
  obtain ⟨r1, r2, r3⟩ := rq_mid astd z2 z3
  have z0 : 0 < z := lt_of_lt_of_le (by positivity) z2
  have ein : ∀ {x : ℚ} {F : Fmt}, F.In x → F.In (sg t.msb * x) := by
    intro x F hx; cases t.msb
    · simpa [sg] using hx
    · simpa [sg] using In_neg hx
  have hm : (Fl.mul (powF A w) (.num (sg t.msb)) (.num z)).Is (sg t.msb * z) := by
    have e1 : (powF A w).rq (sg t.msb * z) = sg t.msb * z := (powF A w).rq_of_rep (ein z4).1
    have := Fl.Is.mul (F := powF A w) (Fl.Is.num (q := sg t.msb) (by cases t.msb <;> simp [sg])) (Fl.Is.num z0.ne')
      (by rw [e1]; exact (ein z4).2)
    rwa [e1] at this
  rcases logTo_eq L A w e with e' | ⟨e0, e'⟩
  · rw [signFactor_regular h, ofInt_unit (powF_std A w), z1] at e'
    refine ⟨l, _, z, e, hl, z1, z2, z3, z4, e', ?_, ein r3, r1⟩
    have := hm.cast (F := A.fmt) (by rw [rq_sg]; exact (ein r3).2)
    rwa [rq_sg] at this
  · rw [signFactor_regular h, ofInt_unit (powF_std A w), z1] at e'
    refine ⟨l, _, z, e, hl, z1, z2, z3, z4, e', ?_, ein r3, r1⟩
    rw [← e0, (powF A w).rq_of_rep z4.1]
    exact hm

end Takum
