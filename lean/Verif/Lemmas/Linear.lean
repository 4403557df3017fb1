import Verif.Props.LogArith

/-!
# Lemmas on the linear takums: decoding, and the position of a float on the linear scale
-/

namespace Takum
open Spec

/-! ### The inverse of λ -/

/-- The inverse of `lam` on the positive numbers. -/
def lamInv (v : ℚ) : ℚ := Int.log 2 v + (v / (2 : ℚ) ^ Int.log 2 v - 1)

theorem log_two_bounds {v : ℚ} (hv : 0 < v) : (2 : ℚ) ^ Int.log 2 v ≤ v ∧ v < (2 : ℚ) ^ (Int.log 2 v + 1) := by
  have h1 := Int.zpow_log_le_self (b := 2) (by norm_num) hv
  have h2 := Int.lt_zpow_succ_log_self (b := 2) (by norm_num) v
  exact ⟨by exact_mod_cast h1, by exact_mod_cast h2⟩

theorem frac_two_bounds {v : ℚ} (hv : 0 < v) : 1 ≤ v / (2 : ℚ) ^ Int.log 2 v ∧ v / (2 : ℚ) ^ Int.log 2 v < 2 := by
  obtain ⟨h1, h2⟩ := log_two_bounds hv
  have hp : (0 : ℚ) < (2 : ℚ) ^ Int.log 2 v := zpow_pos (by norm_num) _
  rw [zpow_add_one₀ (by norm_num)] at h2
  constructor
  · rw [le_div_iff₀ hp]; linarith
  · rw [div_lt_iff₀ hp]; linarith

theorem floor_lamInv {v : ℚ} (hv : 0 < v) : ⌊lamInv v⌋ = Int.log 2 v := by
  obtain ⟨h1, h2⟩ := frac_two_bounds hv
  rw [Int.floor_eq_iff]
  unfold lamInv
  constructor <;> linarith

theorem lam_lamInv {v : ℚ} (hv : 0 < v) : lam (lamInv v) = v := by
  have hf := floor_lamInv hv
  have hp : (2 : ℚ) ^ Int.log 2 v ≠ 0 := zpow_ne_zero _ (by norm_num)
  unfold lam Int.fract
  rw [hf]
  unfold lamInv
  field_simp
  ring

theorem lamInv_lam (x : ℚ) : lamInv (lam x) = x :=
  lam_strictMono.injective (lam_lamInv (lam_pos x))

theorem lamInv_le_iff {u v : ℚ} (hu : 0 < u) (hv : 0 < v) : lamInv u ≤ lamInv v ↔ u ≤ v := by
  rw [← lam_strictMono.le_iff_le, lam_lamInv hu, lam_lamInv hv]

theorem lamInv_lt_iff {u v : ℚ} (hu : 0 < u) (hv : 0 < v) : lamInv u < lamInv v ↔ u < v := by
  rw [← lam_strictMono.lt_iff_lt, lam_lamInv hu, lam_lamInv hv]

/-! ### Decoding -/

/-- The format has at least the range and precision of `float`. -/
def Fmt.Good (F : Fmt) : Prop := 24 ≤ F.prec ∧ F.emin ≤ -149 ∧ 128 ≤ F.emax

theorem b32_good : b32.Good := by unfold Fmt.Good; decide
theorem b64_good : b64.Good := by unfold Fmt.Good; decide
theorem x80_good : x80.Good := by unfold Fmt.Good; decide

theorem Fmt.Good.one_le {F : Fmt} (h : F.Good) : 1 ≤ F.prec := by have := h.1; omega

theorem Fmt.Good.small {F : Fmt} (h : F.Good) {q : ℚ} (hq : |q| ≤ 2 ^ 100) : |F.rq q| < (2 : ℚ) ^ F.emax := by
  obtain ⟨h1, h2, h3⟩ := h
  have hr : F.Rep (2 ^ 100) := by
    have := Fmt.Rep.zpow (F := F) (by omega) (k := 100) (by omega)
    exact_mod_cast this
  refine lt_of_le_of_lt (F.abs_rq_le (by omega) hr hq) (lt_of_lt_of_le ?_ (zpow_big h3))
  norm_num

theorem Fmt.Good.int {F : Fmt} (h : F.Good) {k : ℤ} (hk : |k| < 2 ^ 24) : (Fl.ofInt F k).Is k := by
  obtain ⟨h1, h2, h3⟩ := h
  apply Fl.Is.ofInt_in
  apply in_of_rep h3
  · apply Fmt.Rep.int (by omega)
    exact lt_of_lt_of_le hk (pow_le_pow_right₀ (by norm_num) h1)
  · have : ((|k| : ℤ) : ℚ) < ((2 ^ 24 : ℤ) : ℚ) := by exact_mod_cast hk
    push_cast at this
    exact lt_trans this (by norm_num)

theorem ofInt16 {k : ℤ} (h : |k| < 2 ^ 15) : (BitVec.ofInt 16 k).toInt = k := by
  rw [abs_lt] at h
  rw [BitVec.toInt_ofInt]
  apply Int.bmod_eq_of_le <;> omega

theorem Fl.Is.ite_neg {x : Fl} {q : ℚ} (h : x.Is q) (s : Bool) : (if s then x.neg else x).Is (sg s * q) := by
  cases s
  · simpa [sg] using h
  · simpa [sg] using h.neg

theorem Fl.Is.congr {x : Fl} {p q : ℚ} (h : x.Is p) (e : p = q) : x.Is q := e ▸ h

theorem b2i_sg (s : Bool) : ((1 - 2 * b2i s : ℤ) : ℚ) = sg s := by cases s <;> simp [b2i, sg]

theorem Fmt.Good.sgn {F : Fmt} (h : F.Good) (s : Bool) : (Fl.ofInt F (1 - 2 * b2i s)).Is (sg s) := by
  refine (h.int (k := 1 - 2 * b2i s) ?_).congr (b2i_sg s)
  cases s <;> simp [b2i]

theorem fract_in {q : ℚ} {j : ℤ} (h : q * 2 ^ 63 = j) {x : ℚ} {i : ℤ} (hx : x = i + q ∨ x = i - q) (h2 : |x| ≤ 1) :
    x80.In x := by
  apply in_of_rep (by decide)
  · have hx' : ∃ k : ℤ, x = k * (2 : ℚ) ^ (-63 : ℤ) := by
      rcases hx with hx | hx
      · refine ⟨i * 2 ^ 63 + j, ?_⟩
        rw [hx]; push_cast; rw [← h, zpow_neg]; norm_num; ring
      · refine ⟨i * 2 ^ 63 - j, ?_⟩
        rw [hx]; push_cast; rw [← h, zpow_neg]; norm_num; ring
    obtain ⟨k, hk⟩ := hx'
    exact Fmt.Rep.of_lt k (-63) hk (by decide) (lt_of_le_of_lt h2 (by norm_num [x80]))
  · exact lt_of_le_of_lt h2 (by norm_num)

/-- `codec_s_and_linear_l_*` is exact for positions on the grid of `2^-63`. -/
theorem sAndLinearL_spec (s : Bool) {l : Fl} {q : ℚ} (hl : l.Is q) {j : ℤ} (hj : q * 2 ^ 63 = j) (hq : |q| < 300) :
    ∃ r : Fl, sAndLinearL s l = .ok r ∧ r.Is (sg s * lam q) := by
  have hcpm := hl.ite_neg s
  set y : ℚ := sg s * q with hy
  have hyj : ∃ i : ℤ, y * 2 ^ 63 = i := by
    cases s
    · exact ⟨j, by rw [hy, ← hj]; simp [sg]⟩
    · exact ⟨-j, by rw [hy]; push_cast; rw [← hj]; simp [sg]⟩
  obtain ⟨i, hi⟩ := hyj
  have hyq : |y| < 300 := by rw [hy, sg_abs]; exact hq
  obtain ⟨y1, y2⟩ := abs_lt.mp hyq
  have f1 : -300 ≤ ⌊y⌋ := by rw [Int.le_floor]; push_cast; linarith
  have f2 : ⌊y⌋ < 300 := by rw [Int.floor_lt]; push_cast; linarith
  have g0 := Int.fract_nonneg y
  have g1 := Int.fract_lt_one y
  have hfr : Int.fract y = y - ⌊y⌋ := rfl
  unfold sAndLinearL
  simp only [hl.isnan, hl.isinf, Bool.false_and, Bool.or_false, Bool.false_eq_true, if_false]
  rw [hcpm.floor.toInt (b := 16) ⟨by omega, by omega⟩]
  simp only [ok_bind]
  have hc : (Fl.ofInt x80 ⌊y⌋).Is (⌊y⌋ : ℤ) := x80_good.int (by rw [abs_lt]; omega)
  have hm : (Fl.sub x80 (if s = true then l.neg else l) (Fl.ofInt x80 ⌊y⌋)).Is (Int.fract y) := by
    apply Is.round_in (fract_in hi (i := -⌊y⌋) (Or.inl (by push_cast; rw [hfr]; ring)) (by rw [abs_le]; constructor <;> linarith))
    intro hb
    rw [hfr] at hb ⊢
    exact hcpm.sub hc hb
  set mm := Fl.sub x80 (if s = true then l.neg else l) (Fl.ofInt x80 ⌊y⌋) with hmm
  have hne : Fl.eq mm (.num 1) = false := by
    rw [Bool.eq_false_iff, ne_eq, Fl.eq_iff hm (Fl.Is.num one_ne_zero)]
    linarith
  rw [hne]
  simp only [Bool.false_eq_true, if_false]
  have he : |(1 - 2 * b2i s) * (⌊y⌋ + b2i s)| < 2 ^ 15 := by
    rw [abs_lt]; cases s <;> simp [b2i] <;> omega
  rw [ofInt16 he]
  have key : ∀ (h : ℤ) (g : Fl) (γ : ℚ), g.Is γ → 0 ≤ γ → γ < 1 → (∃ k : ℤ, γ * 2 ^ 63 = k) → |h| < 400 →
      (Fl.mul x80 (Fl.ofInt x80 (1 - 2 * b2i s)) (Fl.ldexp x80 (Fl.add x80 (.num 1) g) h)).Is
        (sg s * ((1 + γ) * (2 : ℚ) ^ h)) := by
    intro h g γ hg h0 h1 hk hh
    obtain ⟨k, hk⟩ := hk
    rw [abs_lt] at hh
    have i1 : (Fl.add x80 (.num 1) g).Is (1 + γ) := by
      apply Is.round_in (F := x80)
      · apply in_of_rep (by decide)
        · refine Fmt.Rep.of_lt (2 ^ 63 + k) (-63) ?_ (by decide) ?_
          · push_cast; rw [← hk, zpow_neg]; norm_num; ring
          · rw [abs_of_pos (by linarith)]; refine lt_of_lt_of_le (by linarith : 1 + γ < 2) (by norm_num [x80])
        · rw [abs_of_pos (by linarith)]; linarith
      · intro hb; exact (Fl.Is.num one_ne_zero).add hg hb
    have hin : x80.In ((1 + γ) * (2 : ℚ) ^ h) := by
      have hp : (0 : ℚ) < (2 : ℚ) ^ h := zpow_pos (by norm_num) _
      have hlt : |(1 + γ) * (2 : ℚ) ^ h| < (2 : ℚ) ^ (h + 1) := by
        rw [abs_of_pos (by positivity), zpow_add_one₀ (by norm_num), mul_comm]
        exact mul_lt_mul_of_pos_left (by linarith) hp
      constructor
      · refine Fmt.Rep.of_lt (2 ^ 63 + k) (-63 + h) ?_ (by simp only [x80]; omega) ?_
        · push_cast; rw [← hk, zpow_add₀ (by norm_num), zpow_neg]; norm_num; ring
        · refine lt_of_lt_of_le hlt (zpow_le_zpow_right₀ (by norm_num) ?_)
          simp only [x80]; push_cast; omega
      · refine lt_of_lt_of_le hlt (zpow_le_zpow_right₀ (by norm_num) ?_)
        simp only [x80]; omega
    have i2 : (Fl.ldexp x80 (Fl.add x80 (.num 1) g) h).Is ((1 + γ) * (2 : ℚ) ^ h) :=
      Is.round_in hin (fun hb => i1.ldexp hb)
    apply Is.round_in
    · cases s
      · simpa [sg] using hin
      · have : x80.In (-((1 + γ) * (2 : ℚ) ^ h)) := ⟨hin.1.neg, by rw [abs_neg]; exact hin.2⟩
        simpa [sg] using this
    · intro hb; exact (x80_good.sgn s).mul i2 hb
  cases s
  · refine ⟨_, rfl, ?_⟩
    have hqy : q = y := by simp [hy, sg]
    simp only [Bool.false_eq_true, if_false]
    have := key ((1 - 2 * b2i false) * (⌊y⌋ + b2i false)) mm _ hm g0 g1
      ⟨i - ⌊y⌋ * 2 ^ 63, by push_cast; rw [← hi, hfr]; ring⟩ (by rw [abs_lt]; simp [b2i]; omega)
    refine this.congr ?_
    rw [hqy]; unfold lam
    congr 3; simp [b2i]
  · refine ⟨_, rfl, ?_⟩
    have hqy : q = -y := by simp [hy, sg]
    simp only [if_true]
    by_cases hz : Int.fract y = 0
    · rw [if_pos ((Fl.eq_iff hm (Fl.Is.zero false)).mpr hz)]
      have e1 : (1 - 2 * b2i true) * (⌊y⌋ + b2i true) + 1 = -⌊y⌋ := by simp [b2i]
      simp only [e1]
      rw [ofInt16 (by rw [abs_lt]; omega)]
      refine (key (-⌊y⌋) (.zero false) 0 (Fl.Is.zero _) le_rfl one_pos ⟨0, by simp⟩ (by rw [abs_lt]; omega)).congr ?_
      have hyi : y = ⌊y⌋ := by linarith
      rw [hqy]; unfold lam
      have hq' : -y = ((-⌊y⌋ : ℤ) : ℚ) := by rw [hyi]; simp
      rw [hq', Int.floor_intCast, Int.fract_intCast]
    · have hnz : ¬ (Fl.eq mm (.zero false) = true) := by
        rw [Fl.eq_iff hm (Fl.Is.zero false)]; exact hz
      rw [if_neg hnz]
      have hpos : 0 < Int.fract y := lt_of_le_of_ne g0 (Ne.symm hz)
      have i1 : (Fl.sub x80 (.num 1) mm).Is (1 - Int.fract y) := by
        apply Is.round_in (fract_in hi (i := 1 + ⌊y⌋) (Or.inr (by push_cast; rw [hfr]; ring))
          (by rw [abs_le]; constructor <;> linarith))
        intro hb; exact (Fl.Is.num one_ne_zero).sub hm hb
      have e1 : (1 - 2 * b2i true) * (⌊y⌋ + b2i true) = -⌊y⌋ - 1 := by simp [b2i]; ring
      simp only [e1]
      refine (key (-⌊y⌋ - 1) _ _ i1 (by linarith) (by linarith)
        ⟨2 ^ 63 - i + ⌊y⌋ * 2 ^ 63, by push_cast; rw [← hi, hfr]; ring⟩ (by rw [abs_lt]; omega)).congr ?_
      have hfl : ⌊q⌋ = -⌊y⌋ - 1 := by
        rw [Int.floor_eq_iff, hqy]; push_cast; constructor <;> linarith
      unfold lam Int.fract
      rw [hfl, hqy]
      push_cast
      congr 2
      ring

/-- `lam` of a position on a grid is representable. -/
theorem lam_rep {F : Fmt} {q : ℚ} {g : ℕ} {j : ℤ} (hj : q * 2 ^ g = j) (hg : g + 1 ≤ F.prec)
    (he : F.emin ≤ ⌊q⌋ - g) : F.Rep (lam q) := by
  obtain ⟨h1, h2⟩ := lam_bounds q
  have hp := lam_pos q
  refine Fmt.Rep.of_lt (2 ^ g + j - ⌊q⌋ * 2 ^ g) (⌊q⌋ - g) ?_ he ?_
  · unfold lam Int.fract
    push_cast
    rw [← hj, zpow_sub₀ (by norm_num), zpow_natCast]
    field_simp
    ring
  · rw [abs_of_pos hp]
    exact lt_of_lt_of_le h2 (zpow_le_zpow_right₀ (by norm_num) (by omega))

theorem ell_pow {w : W} (t : T w) : ∃ j : ℤ, ell t * 2 ^ (len w.n - 5) = j := by
  obtain ⟨j, hj⟩ := ell_multiple t
  refine ⟨j, ?_⟩
  rw [hj, zpow_neg, zpow_natCast]; field_simp

theorem lam_ell_in {w : W} (t : T w) {F : Fmt} (hp : len w.n - 4 ≤ F.prec) (he : F.emin ≤ -400) (hx : 300 ≤ F.emax) :
    F.In (lam (ell t)) := by
  have hl : 5 ≤ len w.n ∧ len w.n ≤ 64 := by cases w <;> decide
  obtain ⟨j, hj⟩ := ell_pow t
  obtain ⟨a1, a2⟩ := abs_lt.mp (abs_ell_lt t)
  have f1 : -256 ≤ ⌊ell t⌋ := by rw [Int.le_floor]; push_cast; linarith
  have f2 : ⌊ell t⌋ < 256 := by rw [Int.floor_lt]; push_cast; linarith
  refine ⟨lam_rep hj (by omega) (by omega), ?_⟩
  rw [abs_of_pos (lam_pos _)]
  exact lt_of_lt_of_le (lam_bounds _).2 (zpow_le_zpow_right₀ (by norm_num) (by omega))

/-- The number represented by a regular linear takum. -/
def lv {n : ℕ} (t : BitVec n) : ℚ := sg t.msb * lam (ell t)

theorem linVal_lv {n : ℕ} (hn : 5 ≤ n) {t : BitVec n} (h : Regular t) : linVal t = some (lv t) := linVal_sg hn h

theorem lv_ne {n : ℕ} (t : BitVec n) : lv t ≠ 0 := by
  have := lam_pos (ell t)
  unfold lv sg; split <;> simp [this.ne']

theorem lv_neg_iff {n : ℕ} (t : BitVec n) : lv t < 0 ↔ t.msb = true := by
  have := lam_pos (ell t)
  unfold lv sg
  cases t.msb <;> simp [this, this.le]

theorem lv_abs {n : ℕ} (t : BitVec n) : |lv t| = lam (ell t) := by
  unfold lv; rw [sg_abs, abs_of_pos (lam_pos _)]

theorem lv_in {w : W} (t : T w) {F : Fmt} (hp : len w.n - 4 ≤ F.prec) (he : F.emin ≤ -400) (hx : 300 ≤ F.emax) :
    F.In (lv t) := by
  have h := lam_ell_in t hp he hx
  unfold lv sg
  cases t.msb
  · simpa using h
  · have : F.In (-lam (ell t)) := ⟨h.1.neg, by rw [abs_neg]; exact h.2⟩
    simpa using this

theorem sAndLinearL_regular {w : W} {t : T w} {l : Fl} (hl : l.Is (ell t)) :
    ∃ r : Fl, sAndLinearL (isNeg t) l = .ok r ∧ r.Is (lv t) := by
  have hlen : len w.n - 5 ≤ 63 := by cases w <;> decide
  obtain ⟨j, hj⟩ := ell_pow t
  rw [isNeg_eq]
  refine sAndLinearL_spec t.msb hl (j := j * 2 ^ (63 - (len w.n - 5))) ?_ ((abs_ell_lt t).trans (by norm_num))
  push_cast
  rw [← hj, mul_assoc, ← pow_add]; congr 2; omega

theorem sAndLinearL_nan (s : Bool) : sAndLinearL s .nan = .ok .nan := rfl
theorem sAndLinearL_inf (s : Bool) : sAndLinearL s (.inf true) = .ok (.zero false) := rfl

/-- The part common to all functions from a linear takum to a float. -/
theorem linTo_regular {w : W} {t : T w} (h : Regular t) :
    ∃ l r : Fl, toL w t = .ok l ∧ sAndLinearL (isNeg t) l = .ok r ∧ r.Is (lv t) := by
  obtain ⟨l, h1, h2⟩ := toL_regular w t h
  obtain ⟨r, h3, h4⟩ := sAndLinearL_regular h2
  exact ⟨l, r, h1, h3, h4⟩

theorem b64_small {w : W} (t : T w) : |b64.rq (lv t)| < (2 : ℚ) ^ b64.emax := by
  have hr : b64.Rep ((2 : ℚ) ^ (256 : ℤ)) := Fmt.Rep.zpow (by decide) (by decide)
  refine lt_of_le_of_lt (b64.abs_rq_le (by decide) hr ?_) (zpow_lt_zpow_right₀ (by norm_num) (by decide))
  rw [lv_abs]
  obtain ⟨a1, a2⟩ := abs_lt.mp (abs_ell_lt t)
  have f2 : ⌊ell t⌋ < 256 := by rw [Int.floor_lt]; push_cast; linarith
  exact ((lam_bounds _).2.trans_le (zpow_le_zpow_right₀ (by norm_num) (by omega))).le

theorem linToFloat64_regular {w : W} {t : T w} (h : Regular t) :
    ∃ r : Fl, linToFloat64 w t = .ok r ∧ r.Is (b64.rq (lv t)) := by
  obtain ⟨l, r, h1, h2, h3⟩ := linTo_regular h
  refine ⟨Fl.cast b64 r, ?_, h3.cast (b64_small t)⟩
  unfold linToFloat64 sAndLinearLToFloat64
  rw [h1]; simp only [ok_bind]; rw [h2]; rfl

theorem lv_b64 {w : W} (hw : w ≠ .w64) (t : T w) : b64.In (lv t) :=
  lv_in t (by cases w <;> first | decide | contradiction) (by decide) (by decide)

theorem linToExtended_regular {w : W} {t : T w} (h : Regular t) :
    ∃ r : Fl, linToExtended w t = .ok r ∧ r.Is (lv t) := by
  by_cases hw : w = .w64
  · subst hw
    obtain ⟨l, r, h1, h2, h3⟩ := linTo_regular h
    refine ⟨r, ?_, h3⟩
    unfold linToExtended sAndLinearLToExtended
    rw [h1]; simp only [ok_bind]; exact h2
  · obtain ⟨r, h1, h2⟩ := linToFloat64_regular h
    rw [b64.rq_of_rep (lv_b64 hw t).1] at h2
    refine ⟨r, ?_, h2⟩
    rw [← h1]
    unfold linToExtended linToFloat64
    cases w <;> first | rfl | contradiction

theorem linToFloat64_zero (w : W) : linToFloat64 w 0#w.n = .ok (.zero false) := by
  unfold linToFloat64 sAndLinearLToFloat64
  rw [toL_zero]; rfl

theorem linToFloat64_nar (w : W) : linToFloat64 w (nar w.n) = .ok .nan := by
  unfold linToFloat64 sAndLinearLToFloat64
  rw [toL_nar]; rfl

theorem linToExtended_zero (w : W) : linToExtended w 0#w.n = .ok (.zero false) := by
  unfold linToExtended
  rw [toL_zero]; cases w <;> rfl

theorem linToExtended_nar (w : W) : linToExtended w (nar w.n) = .ok .nan := by
  unfold linToExtended
  rw [toL_nar]; cases w <;> rfl

/-! ### Encoding -/

theorem log_of_in {A : Fmt} {v : ℚ} (hv : v ≠ 0) (h : A.In v) : A.emin ≤ Int.log 2 |v| ∧ Int.log 2 |v| < A.emax := by
  have hp : 0 < |v| := abs_pos.mpr hv
  obtain ⟨l1, l2⟩ := log_two_bounds hp
  obtain ⟨⟨m, e, h1, h2, h3⟩, h4⟩ := h
  constructor
  · have hm : m ≠ 0 := by rintro rfl; simp at h1; exact hv h1
    have : (2 : ℚ) ^ e ≤ |v| := by
      have hpe : (0 : ℚ) < (2 : ℚ) ^ e := zpow_pos (by norm_num) _
      rw [h1, abs_mul, abs_of_pos hpe]
      have : (1 : ℚ) ≤ |(m : ℚ)| := by exact_mod_cast Int.one_le_abs hm
      nlinarith
    have := lt_of_le_of_lt this l2
    rw [zpow_lt_zpow_iff_right₀ (by norm_num)] at this
    omega
  · have := lt_of_le_of_lt l1 h4
    rwa [zpow_lt_zpow_iff_right₀ (by norm_num)] at this

/-- The fraction of a float is a multiple of the unit in the last place. -/
theorem frac_multiple {A : Fmt} {v : ℚ} (hv : v ≠ 0) (h : A.Rep v) (hp : 1 ≤ A.prec) :
    ∃ j : ℤ, |v| / (2 : ℚ) ^ Int.log 2 |v| * 2 ^ (A.prec - 1) = j := by
  have hpos : 0 < |v| := abs_pos.mpr hv
  obtain ⟨l1, l2⟩ := log_two_bounds hpos
  obtain ⟨j, hj⟩ := h.abs.multiple (e := Int.log 2 |v| - (A.prec - 1)) (by
    rw [abs_abs]; refine le_trans (le_of_eq ?_) l1; congr 1; ring)
  refine ⟨j, ?_⟩
  rw [div_mul_eq_mul_div, div_eq_iff (zpow_ne_zero _ (by norm_num))]
  nth_rewrite 1 [hj]
  rw [mul_assoc, ← zpow_natCast (2 : ℚ) (A.prec - 1), ← zpow_add₀ (by norm_num)]
  congr 2
  push_cast [Nat.cast_sub hp]
  ring

theorem lamInv_grid {A : Fmt} {v : ℚ} (hv : v ≠ 0) (h : A.Rep v) (hp : 1 ≤ A.prec) :
    ∃ j : ℤ, lamInv |v| * 2 ^ (A.prec - 1) = j := by
  obtain ⟨j, hj⟩ := frac_multiple hv h hp
  refine ⟨Int.log 2 |v| * 2 ^ (A.prec - 1) + j - 2 ^ (A.prec - 1), ?_⟩
  unfold lamInv
  push_cast; rw [← hj]; ring

theorem linearLFrom_spec {F A : Fmt} (hF : F.Good) (hAF : A.prec ≤ F.prec) (hA1 : 1 ≤ A.prec)
    (hA2 : A.prec ≤ 100) (hA3 : -32000 ≤ A.emin) (hA4 : A.emax ≤ 32000)
    {f : Fl} {v : ℚ} (hf : f.Is v) (hv : v ≠ 0) (hr : A.In v) :
    ∃ l : Fl, linearLFrom F f = .ok l ∧ l.Is (F.rq (lamInv |v|)) := by
  have hp : 0 < |v| := abs_pos.mpr hv
  obtain ⟨e1, e2⟩ := log_of_in hv hr
  obtain ⟨j, hj⟩ := frac_multiple hv hr.1 hA1
  obtain ⟨b1, b2⟩ := frac_two_bounds hp
  set h := Int.log 2 |v| with hh
  set a := |v| / (2 : ℚ) ^ h with ha
  obtain ⟨hF1, hF2, hF3⟩ := id hF
  have p2 : (2 : ℚ) ^ h ≠ 0 := zpow_ne_zero _ (by norm_num)
  -- multiples of the unit are representable
  have rep : ∀ x : ℚ, (∃ k : ℤ, x * 2 ^ (A.prec - 1) = k) → |x| < 2 → F.In x := by
    rintro x ⟨k, hk⟩ hx
    apply in_of_rep hF3
    · refine Fmt.Rep.of_lt k (-((A.prec - 1 : ℕ) : ℤ)) ?_ (by omega) ?_
      · rw [← hk, zpow_neg, zpow_natCast]; field_simp
      · refine lt_of_lt_of_le hx ?_
        calc (2 : ℚ) = (2 : ℚ) ^ (1 : ℤ) := by norm_num
          _ ≤ _ := zpow_le_zpow_right₀ (by norm_num) (by omega)
    · exact hx.trans (by norm_num)
  have hi2 : (Fl.ofInt F 2).Is 2 := by simpa using hF.int (k := 2) (by norm_num)
  have hfn := hf.eq_num hv
  have hlt : Fl.lt f (.zero false) = decide (v < 0) := by
    rw [Bool.eq_iff_iff, Fl.lt_iff hf (Fl.Is.zero false)]; simp
  have hnz : Fl.eq f (.zero false) = false := by
    rw [Bool.eq_false_iff, ne_eq, Fl.eq_iff hf (Fl.Is.zero false)]; exact hv
  have habs : (if Fl.lt f (.zero false) = true then f.neg else f) = .num |v| := by
    rw [hlt, hfn]
    by_cases h0 : v < 0
    · simp [h0, Fl.neg, abs_of_neg h0]
    · simp [h0, abs_of_nonneg (not_lt.mp h0)]
  have hg1 : (Fl.mul F (Fl.ofInt F 2) (.num (|v| / (2 : ℚ) ^ (h + 1)))).Is a := by
    apply Is.round_in (rep a ⟨j, hj⟩ (by rw [abs_of_pos (by linarith)]; exact b2))
    have hq : (2 : ℚ) * (|v| / (2 : ℚ) ^ (h + 1)) = a := by
      rw [zpow_add_one₀ (by norm_num), ha]; field_simp
    intro hb
    rw [← hq] at hb ⊢
    exact hi2.mul (Fl.Is.num (by positivity)) hb
  have hg2 : (Fl.sub F (Fl.mul F (Fl.ofInt F 2) (.num (|v| / (2 : ℚ) ^ (h + 1)))) (.num 1)).Is (a - 1) := by
    apply Is.round_in (rep (a - 1) ⟨j - 2 ^ (A.prec - 1), by push_cast; rw [← hj]; ring⟩
      (by rw [abs_of_nonneg (by linarith)]; linarith))
    intro hb
    exact hg1.sub (Fl.Is.num one_ne_zero) hb
  set g := Fl.sub F (Fl.mul F (Fl.ofInt F 2) (.num (|v| / (2 : ℚ) ^ (h + 1)))) (.num 1) with hg
  unfold linearLFrom
  simp only [hf.isnan, hf.isinf, hnz, Bool.or_self, Bool.false_eq_true, if_false, habs, Fl.frexp, abs_abs]
  rw [← hh, ← hg]
  have fin : ∀ (s : Bool) (c : ℤ) (m : Fl) (μ : ℚ), m.Is μ → |c| < 2 ^ 15 → |μ| ≤ 1 → sg s * (c + μ) = lamInv |v| →
      (Fl.mul F (Fl.ofInt F (1 - 2 * b2i s)) (Fl.add F (Fl.ofInt F (BitVec.ofInt 16 c).toInt) m)).Is
        (F.rq (lamInv |v|)) := by
    intro s c m μ hm hc hμ he
    rw [ofInt16 hc]
    have hcq : |(c : ℚ)| < 2 ^ 15 := by exact_mod_cast hc
    have hcm : |(c : ℚ) + μ| ≤ 2 ^ 100 := by
      refine (abs_add_le _ _).trans ?_
      norm_num at hcq ⊢
      linarith
    have i1 : (Fl.ofInt F c).Is c := hF.int (lt_trans hc (by norm_num))
    have i2 := i1.add hm (hF.small hcm)
    have hrr : F.Rep (F.rq ((c : ℚ) + μ)) := F.rq_rep hF.one_le _
    have e3 : F.rq (lamInv |v|) = sg s * F.rq ((c : ℚ) + μ) := by
      rw [← he]; cases s
      · simp [sg]
      · simp only [sg, if_true, neg_mul, one_mul, Fmt.rq_neg]
    rw [e3]
    have hin : F.In (sg s * F.rq ((c : ℚ) + μ)) := by
      refine ⟨?_, ?_⟩
      · cases s
        · simpa [sg] using hrr
        · simpa [sg] using hrr.neg
      · rw [sg_abs]; exact hF.small hcm
    exact Is.round_in hin (fun hb => (hF.sgn s).mul i2 hb)
  refine ⟨_, rfl, ?_⟩
  rw [hlt]
  by_cases h0 : v < 0
  · simp only [h0, decide_true, if_true]
    by_cases hz : a - 1 = 0
    · rw [if_pos ((Fl.eq_iff hg2 (Fl.Is.zero false)).mpr hz)]
      refine fin true _ _ 0 (Fl.Is.zero _) (by rw [abs_lt]; constructor <;> omega) (by simp) ?_
      unfold lamInv; rw [← hh, ← ha]; simp only [sg, if_true]; push_cast; linarith
    · rw [if_neg (by rw [Fl.eq_iff hg2 (Fl.Is.zero false)]; exact hz)]
      have i3 : (Fl.sub F (.num 1) g).Is (1 - (a - 1)) := by
        apply Is.round_in (rep _ ⟨2 * 2 ^ (A.prec - 1) - j, by push_cast; rw [← hj]; ring⟩
          (by rw [abs_of_nonneg (by linarith)]; linarith [lt_of_le_of_ne (by linarith : 0 ≤ a - 1) (Ne.symm hz)]))
        intro hb
        exact (Fl.Is.num one_ne_zero).sub hg2 hb
      refine fin true _ _ _ i3 (by rw [abs_lt]; constructor <;> omega)
        (by rw [abs_le]; constructor <;> linarith) ?_
      unfold lamInv; rw [← hh, ← ha]; simp only [sg, if_true]; push_cast; ring
  · simp only [h0, decide_false, Bool.false_eq_true, if_false]
    refine fin false _ _ _ hg2 (by rw [abs_lt]; constructor <;> omega)
      (by rw [abs_le]; constructor <;> linarith) ?_
    unfold lamInv; rw [← hh, ← ha]; simp only [sg, Bool.false_eq_true, if_false]; push_cast; ring

end Takum
