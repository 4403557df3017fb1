import Verif.Props.Wider
import Verif.Props.Integers
import Verif.Props.LinNearest
import Verif.Props.Scale

/-!
# C115: products of linear takums are exact in a wider type
-/

namespace Takum
open Spec

/-- The 8-bit significands: the number is a multiple of the unit of its exponent. -/
theorem sig8 : ∀ t : BitVec 8, (lam (ell t) / (2 : ℚ) ^ (⌊ell t⌋ - ((8 - 5 - rg ⌊ell t⌋ : ℕ) : ℤ))).den = 1 := by
  decide +kernel

/-- A linear takum is a multiple of the unit of its exponent. -/
theorem lin_unit {w : W} {t : T w} (ht : Regular t) :
    ∃ k : ℤ, |lv t| = k * (2 : ℚ) ^ (⌊ell t⌋ - ((w.n - 5 - rg ⌊ell t⌋ : ℕ) : ℤ)) := by
  have h8 := w.n_pos
  by_cases hw : 12 ≤ w.n
  · obtain ⟨i1, i2, -⟩ := rg_spec (floor_ell t).1 (floor_ell_lt (by omega) ht)
    obtain ⟨k, hk⟩ := lam_multiple hw t i1 i2 (lam_bounds _).1 (lam_bounds _).2.le
    refine ⟨k, ?_⟩
    rw [lv_abs, hk]; congr 2
    omega
  · have : w = .w8 := by cases w <;> simp_all [W.n]
    subst this
    have := sig8 t
    refine ⟨(lam (ell t) / (2 : ℚ) ^ (⌊ell t⌋ - ((8 - 5 - rg ⌊ell t⌋ : ℕ) : ℤ))).num, ?_⟩
    have e : (((lam (ell t) / (2 : ℚ) ^ (⌊ell t⌋ - ((8 - 5 - rg ⌊ell t⌋ : ℕ) : ℤ))).num : ℤ) : ℚ) =
        lam (ell t) / (2 : ℚ) ^ (⌊ell t⌋ - ((8 - 5 - rg ⌊ell t⌋ : ℕ) : ℤ)) :=
      (Rat.den_eq_one_iff _).mp this
    rw [e, lv_abs]
    exact (div_mul_cancel₀ _ (zpow_pos (by norm_num) _).ne').symm

theorem rg_tab2 : ∀ i < 510, (rg ((i : ℕ) - 255 : ℤ) ≤ 2 → 247 ≤ i ∧ i ≤ 261) ∧ (239 ≤ i → i ≤ 268 → rg ((i : ℕ) - 255 : ℤ) ≤ 4) := by
  decide +kernel

theorem rg_prod {a b c : ℤ} (a1 : -255 ≤ a) (a2 : a < 255) (b1 : -255 ≤ b) (b2 : b < 255) (c1 : -255 ≤ c) (c2 : c < 255)
    (h : c = a + b ∨ c = a + b + 1) : rg c ≤ 7 ∧ (rg a ≤ 2 → rg b ≤ 2 → rg c ≤ 4) := by
  refine ⟨by have := (rg_spec c1 c2).1; omega, fun ha hb => ?_⟩
  obtain ⟨i, hi⟩ := Int.eq_ofNat_of_zero_le (by omega : 0 ≤ a + 255)
  obtain ⟨j, hj⟩ := Int.eq_ofNat_of_zero_le (by omega : 0 ≤ b + 255)
  obtain ⟨k, hk⟩ := Int.eq_ofNat_of_zero_le (by omega : 0 ≤ c + 255)
  have e1 : a = (i : ℤ) - 255 := by omega
  have e2 : b = (j : ℤ) - 255 := by omega
  have e3 : c = (k : ℤ) - 255 := by omega
  have t1 := (rg_tab2 i (by omega)).1 (by rw [← e1]; exact ha)
  have t2 := (rg_tab2 j (by omega)).1 (by rw [← e2]; exact hb)
  rw [e3]
  exact (rg_tab2 k (by omega)).2 (by omega) (by omega)

/-- A multiple of the unit of its exponent within the range is a linear takum. -/
theorem lin_takum_exists' {w : W} (hw : 12 ≤ w.n) {c K : ℤ} {d : ℚ} (h1 : (2 : ℚ) ^ (-255 : ℤ) < d) (h2 : c < 255) (hl : (2 : ℚ) ^ c ≤ d)
    (hu : d < (2 : ℚ) ^ (c + 1)) (hK : d = K * (2 : ℚ) ^ (c - (w.n - 5 : ℕ) + rg c)) :
    ∃ t : T w, Regular t ∧ lv t = d := by
  have hz : ∀ e : ℤ, (0 : ℚ) < (2 : ℚ) ^ e := fun e => zpow_pos (by norm_num) _
  have dl := lam_lamInv ((hz c).trans_le hl)
  set y := lamInv d with hy
  obtain ⟨b1, b2⟩ := lam_bounds y
  rw [dl] at b1 b2
  have one : (1 : ℚ) < 2 := by norm_num
  have fy : ⌊y⌋ = c := by
    have g1 := (zpow_lt_zpow_iff_right₀ one).mp (b1.trans_lt hu)
    have g2 := (zpow_lt_zpow_iff_right₀ one).mp (hl.trans_lt b2)
    omega
  have y1 : (-255 : ℚ) < y := by
    rw [← lam_strictMono.lt_iff_lt, dl]
    have : lam (-255) = (2 : ℚ) ^ (-255 : ℤ) := by
      have := lam_affine (j := -255) (x := -255) (by norm_num) (by norm_num)
      rw [this]; norm_num
    rw [this]; exact h1
  have y2 : y < (255 : ℚ) := by
    have : y < c + 1 := by rw [← fy]; exact Int.lt_floor_add_one y
    have : (c : ℚ) + 1 ≤ 255 := by exact_mod_cast h2
    linarith
  have c1 : -255 ≤ c := by rw [← fy, Int.le_floor]; push_cast; exact y1.le
  have r8 := (rg_spec c1 h2).1
  obtain ⟨m, hm'⟩ : ∃ m : ℕ, w.n - 5 = rg c + m := ⟨w.n - 5 - rg c, by omega⟩
  obtain ⟨t, rt, mt, et⟩ := takum_exists (n := w.n) hw y1 y2 (j := K + (c - 1) * 2 ^ m) (by
    have la := lam_affine (Int.floor_le y) (Int.lt_floor_add_one y).le
    rw [dl, hK, hm', fy] at la
    have e : (2 : ℚ) ^ (c - ((rg c + m : ℕ) : ℤ) + rg c) * 2 ^ m = (2 : ℚ) ^ c := by
      rw [← zpow_natCast (2 : ℚ) m, ← zpow_add₀ (by norm_num)]; congr 1; push_cast; ring
    rw [← e] at la
    have hE := (hz (c - ((rg c + m : ℕ) : ℤ) + rg c)).ne'
    generalize (2 : ℚ) ^ (c - ((rg c + m : ℕ) : ℤ) + rg c) = E at la hE
    have la' : (K : ℚ) = (1 + (y - c)) * 2 ^ m := by
      apply mul_right_cancel₀ hE; linear_combination la
    rw [hm', fy, pow_add]
    push_cast
    linear_combination -(2 : ℚ) ^ rg c * la')
  exact ⟨t, rt, by unfold lv; rw [mt, et, dl]; simp [sg]⟩

/-- The product of two takums within the range is a takum of every wider type. -/
theorem prod_takum {v u : W} (h : v.n < u.n) {a b : T v} (ha : Regular a) (hb : Regular b)
    (h1 : (2 : ℚ) ^ (-255 : ℤ) < |lv a * lv b|) (h2 : |lv a * lv b| < (2 : ℚ) ^ (255 : ℤ)) :
    ∃ t : T u, Regular t ∧ lv t = lv a * lv b := by
  have h8 := v.n_pos
  have hz : ∀ e : ℤ, (0 : ℚ) < (2 : ℚ) ^ e := fun e => zpow_pos (by norm_num) _
  have one : (1 : ℚ) < 2 := by norm_num
  have add : ∀ a b : ℤ, (2 : ℚ) ^ (a + b) = 2 ^ a * 2 ^ b := fun a b => zpow_add₀ (by norm_num) a b
  have h12 : 12 ≤ u.n ∧ 2 * v.n ≤ u.n ∧ (v.n = 8 ∨ 16 ≤ v.n) := by cases v <;> cases u <;> simp_all [W.n]
  obtain ⟨i, hi⟩ := lin_unit ha
  obtain ⟨j, hj⟩ := lin_unit hb
  have fa1 := (floor_ell a).1
  have fa2 := floor_ell_lt (by omega : 5 ≤ v.n) ha
  have fb1 := (floor_ell b).1
  have fb2 := floor_ell_lt (by omega : 5 ≤ v.n) hb
  obtain ⟨la1, la2⟩ := lam_bounds (ell a)
  obtain ⟨lb1, lb2⟩ := lam_bounds (ell b)
  rw [← lv_abs] at la1 la2 lb1 lb2
  generalize ⌊ell a⌋ = ca at *
  generalize ⌊ell b⌋ = cb at *
  have ra := (rg_spec fa1 fa2).1
  have rb := (rg_spec fb1 fb2).1
  have pe : |lv a * lv b| = |lv a| * |lv b| := abs_mul _ _
  have p1 : (2 : ℚ) ^ (ca + cb) ≤ |lv a * lv b| := by
    rw [pe, add]; exact mul_le_mul la1 lb1 (hz _).le (abs_nonneg _)
  have p2 : |lv a * lv b| < (2 : ℚ) ^ (ca + cb + 1 + 1) := by
    rw [pe, show ca + cb + 1 + 1 = (ca + 1) + (cb + 1) by ring, add (ca + 1)]
    exact mul_lt_mul'' la2 lb2 (abs_nonneg _) (abs_nonneg _)
  obtain ⟨c, hc, l1, l2⟩ : ∃ c : ℤ, (c = ca + cb ∨ c = ca + cb + 1) ∧ (2 : ℚ) ^ c ≤ |lv a * lv b| ∧ |lv a * lv b| < (2 : ℚ) ^ (c + 1) := by
    rcases lt_or_ge (|lv a * lv b|) ((2 : ℚ) ^ (ca + cb + 1)) with g | g
    · exact ⟨_, Or.inl rfl, p1, g⟩
    · exact ⟨_, Or.inr rfl, g, p2⟩
  have c2 : c < 255 := (zpow_lt_zpow_iff_right₀ one).mp (l1.trans_lt h2)
  have c1 : -255 ≤ c := by have := (zpow_lt_zpow_iff_right₀ one).mp (h1.trans l2); omega
  obtain ⟨r7, r4⟩ := rg_prod fa1 fa2 fb1 fb2 c1 c2 hc
  have key : (v.n - 5 - rg ca) + (v.n - 5 - rg cb) + 1 + rg c ≤ u.n - 5 := by
    by_cases g : rg ca ≤ 2 ∧ rg cb ≤ 2
    · have := r4 g.1 g.2; omega
    · omega
  obtain ⟨s, rs, es⟩ := lin_takum_exists' h12.1 (w := u) (c := c) (d := |lv a * lv b|)
    (K := i * j * 2 ^ (ca + cb - (v.n - 5 - rg ca : ℕ) - (v.n - 5 - rg cb : ℕ) - (c - (u.n - 5 : ℕ) + rg c)).toNat) h1 c2 l1 l2 (by
      rw [pe, hi, hj]
      push_cast
      rw [← zpow_natCast (2 : ℚ) (Int.toNat _), Int.toNat_of_nonneg (by omega), mul_mul_mul_comm, mul_assoc ((i : ℚ) * j), ← add, ← add]
      congr 2; ring)
  rcases le_or_gt 0 (lv a * lv b) with g | g
  · exact ⟨s, rs, by rw [es, abs_of_nonneg g]⟩
  · obtain ⟨n1, -, n3, n4⟩ := regular_neg (by omega : 5 ≤ u.n) rs
    refine ⟨-s, n3, ?_⟩
    rw [← qv_regular n3, qv_neg rs.2, qv_regular rs, es, abs_of_neg g]; ring

/-- The encoded product compares with the takums like the exact one. -/
theorem prod_abs {w : W} {a b t : T w} (ht : Regular t)
    (hr : Regular (linEnc w (w.src.fmt.rq (qv a * qv b)))) (hs : t.msb = decide (qv a * qv b < 0))
    (hm : (linEnc w (w.src.fmt.rq (qv a * qv b))).msb = decide (qv a * qv b < 0)) :
    (lam (ell t) ≤ |qv a * qv b| → ell t ≤ ell (linEnc w (w.src.fmt.rq (qv a * qv b)))) ∧
      (|qv a * qv b| ≤ lam (ell t) → ell (linEnc w (w.src.fmt.rq (qv a * qv b))) ≤ ell t) := by
  have hi := rq_src_in (w := w) (prod_le (qv_lt a) (qv_lt b))
  obtain ⟨f1, f2⟩ := linEnc_faithful hi ht.2
  have g1 : qv t ≤ qv a * qv b → t.toInt ≤ _ := fun h => f1 (by
    have := Fmt.rq_mono w.src.fmt (src_prec w) h; rwa [rq_qv] at this)
  have g2 : qv a * qv b ≤ qv t → _ ≤ t.toInt := fun h => f2 (by
    have := Fmt.rq_mono w.src.fmt (src_prec w) h; rwa [rq_qv] at this)
  generalize linEnc w (w.src.fmt.rq (qv a * qv b)) = c at *
  rw [← qv_le_iff ht.2 hr.2] at g1
  rw [← qv_le_iff hr.2 ht.2] at g2
  rw [← lam_strictMono.le_iff_le (a := ell t), ← lam_strictMono.le_iff_le (b := ell t)]
  rw [qv_regular ht, qv_regular hr] at g1 g2
  unfold lv at g1 g2
  rw [hs, hm] at g1 g2
  by_cases h0 : qv a * qv b < 0
  · simp only [h0, decide_true, sg, if_true, neg_mul, one_mul, neg_le_neg_iff] at g1 g2
    rw [abs_of_neg h0]
    exact ⟨fun h => g2 (by linarith), fun h => g1 (by linarith)⟩
  · simp only [h0, decide_false, sg, Bool.false_eq_true, if_false, one_mul] at g1 g2
    rw [abs_of_nonneg (not_lt.mp h0)]
    exact ⟨g1, g2⟩

theorem lam_255 : lam (-255) = (2 : ℚ) ^ (-255 : ℤ) ∧ lam 255 = (2 : ℚ) ^ (255 : ℤ) := by
  constructor
  · have := lam_affine (j := -255) (x := -255) (by norm_num) (by norm_num)
    rw [this]; norm_num
  · have := lam_affine (j := 255) (x := 255) (by norm_num) (by norm_num)
    rw [this]; norm_num

/-- Products of regular takums in the wider type. -/
theorem lin_mul_wider_reg {v u : W} (h : v.n < u.n) {a b : T v} (ha : Regular a) (hb : Regular b) {a' b' : T u} (ha' : Regular a')
    (hb' : Regular b') (ea : qv a' = qv a) (eb : qv b' = qv b) :
    ∃ c : T u, linMultiplication u a' b' = .ok c ∧ Regular c ∧
      ((2 : ℚ) ^ (-255 : ℤ) < |qv a * qv b| → |qv a * qv b| < (2 : ℚ) ^ (255 : ℤ) → qv c = qv a * qv b) ∧
      (v = .w8 ∨ v = .w16 → reduce u v c = linMultiplication v a b) := by
  have h8 := v.n_pos
  have ex : (2 : ℚ) ^ (-255 : ℤ) < |qv a * qv b| → |qv a * qv b| < (2 : ℚ) ^ (255 : ℤ) →
      qv (linEnc u (u.src.fmt.rq (qv a' * qv b'))) = qv a * qv b := fun h1 h2 => by
    rw [qv_regular ha, qv_regular hb] at h1 h2
    obtain ⟨t, rt, et⟩ := prod_takum h ha hb h1 h2
    rw [ea, eb]
    rw [← qv_regular ha, ← qv_regular hb, ← qv_regular rt] at et
    rw [← et, rq_qv, linEnc_qv rt.2]
  obtain ⟨c, ec, rc, sc⟩ := lin_multiplication_regular u a' b' ha' hb'
  have ec' := ec
  rw [linMultiplication_eq ha'.2 hb'.2] at ec'
  have ec'' := Except.ok.inj ec'
  rw [ec''] at ex
  refine ⟨c, ec, rc, ex, fun hv => ?_⟩
  obtain ⟨r, er, nr, -⟩ := narrow_nearest h c rc
  rw [er, linMultiplication_eq ha.2 hb.2]; congr 1
  have nv := prod_nearest hv ha hb
  have hm : c.msb = decide (qv a * qv b < 0) := by
    rw [← ea, ← eb]
    have n1 : ∀ {t : T u}, Regular t → (qv t < 0 ↔ t.toInt < 0) := fun {t} rt => by
      rw [qv_regular rt, lv_neg_iff, toInt_neg_iff (by omega) rt]
    have p1 := qv_ne ha'
    have p2 := qv_ne hb'
    rw [Bool.eq_iff_iff, ← toInt_neg_iff (by omega) rc, sc, ← n1 ha', ← n1 hb', decide_eq_true_iff, mul_neg_iff]
    rcases lt_or_gt_of_ne p1 with q1 | q1 <;> rcases lt_or_gt_of_ne p2 with q2 | q2 <;>
      simp [q1, q2, q1.not_gt, q2.not_gt]
  rw [hm] at nr
  generalize linEnc v (v.src.fmt.rq (qv a * qv b)) = tv at nv
  have p0 : 0 < |qv a * qv b| := abs_pos.mpr (mul_ne_zero (qv_ne ha) (qv_ne hb))
  by_cases hr : (2 : ℚ) ^ (-255 : ℤ) < |qv a * qv b| ∧ |qv a * qv b| < (2 : ℚ) ^ (255 : ℤ)
  · have e := ex hr.1 hr.2
    have : ell c = lamInv |qv a * qv b| := by rw [← e, qv_regular rc, lv_abs, lamInv_lam]
    rw [this] at nr
    exact nearestEll_unique (by omega) nr nv
  · obtain ⟨x, -, rx, mx, ex⟩ := expand_ell h nv.1
    obtain ⟨y, -, ry, my, ey⟩ := expand_ell h nr.1
    have hcm := hm
    rw [← ea, ← eb] at hcm
    have rc' := rc
    rw [← ec''] at hcm rc'
    obtain ⟨s1, s2⟩ := prod_abs rx rc' (by rw [mx, nv.2.1, ea, eb]) hcm
    obtain ⟨s3, s4⟩ := prod_abs ry rc' (by rw [my, nr.2.1, ea, eb]) hcm
    rw [ec'', ea, eb] at s1 s2 s3 s4
    rw [ex] at s1 s2; rw [ey] at s3 s4
    have cc := nearestEll_le nr nv.1 nv.2.1
    have dd := nearestEll_le nv nr.1 nr.2.1
    obtain ⟨l3, l4⟩ := ell_range nr.1
    obtain ⟨l5, l6⟩ := ell_range nv.1
    refine ell_inj (by omega) (by rw [nr.2.1, nv.2.1]) ?_
    obtain ⟨z1, z2⟩ := lam_255
    have lm := lam_lamInv p0
    generalize lamInv |qv a * qv b| = q at *
    rw [← lm, ← z1, ← z2, lam_strictMono.lt_iff_lt, lam_strictMono.lt_iff_lt] at hr
    rw [← lm, lam_strictMono.le_iff_le] at s1
    rw [← lm, lam_strictMono.le_iff_le] at s2
    rw [← lm, lam_strictMono.le_iff_le] at s3
    rw [← lm, lam_strictMono.le_iff_le] at s4
    by_cases hh : q < 255
    · have hq2 : q ≤ -255 := not_lt.mp fun h => hr ⟨h, hh⟩
      have t1 := s2 (by linarith)
      have t2 := s4 (by linarith)
      rw [abs_of_nonneg (by linarith), abs_of_nonneg (by linarith)] at cc
      rw [abs_of_nonneg (by linarith), abs_of_nonneg (by linarith)] at dd
      linarith
    · have hq2 : 255 ≤ q := not_lt.mp hh
      have t1 := s1 (by linarith)
      have t2 := s3 (by linarith)
      rw [abs_of_nonpos (by linarith), abs_of_nonpos (by linarith)] at cc
      rw [abs_of_nonpos (by linarith), abs_of_nonpos (by linarith)] at dd
      linarith

/-- C115: the product of two linear takums is computed exactly in every wider type, if it is within the
range of the format; narrowed back to 8 or 16 bits it is what the narrow type's own multiplication
returns, for every pair of bit patterns. -/
theorem lin_multiplication_wider {v u : W} (h : v.n < u.n) (a b : T v) :
    ∃ a' b' c : T u, expand v u a = .ok a' ∧ expand v u b = .ok b' ∧ linMultiplication u a' b' = .ok c ∧
      (∀ x y : ℚ, linVal a = some x → linVal b = some y →
        (x * y = 0 ∨ (2 : ℚ) ^ (-255 : ℤ) < |x * y| ∧ |x * y| < (2 : ℚ) ^ (255 : ℤ)) → linVal c = some (x * y)) ∧
      (v = .w8 ∨ v = .w16 → reduce u v c = linMultiplication v a b) := by
  have h8 := v.n_pos
  obtain ⟨a', ea, -, va, na, za⟩ := widen_exact h a
  obtain ⟨b', eb, -, vb, nb, zb⟩ := widen_exact h b
  refine ⟨a', b', ?_⟩
  have nl : ∀ (w : W) (a b : T w), a = nar w.n ∨ b = nar w.n → linMultiplication w a b = .ok (nar w.n) := fun w a b hn => by
    rcases hn with rfl | rfl
    · rw [(lin_multiplication_laws w _ _).1]; exact (lin_multiplication_laws w b b).2.2.2.1
    · exact (lin_multiplication_laws w a a).2.2.2.1
  by_cases hn : a = nar v.n ∨ b = nar v.n
  · refine ⟨nar u.n, ea, eb, nl u _ _ (by rw [na, nb]; exact hn), ?_, fun _ => by rw [nl v _ _ hn, reduce_nar h]⟩
    intro x y hx hy
    rcases hn with rfl | rfl
    · simp [linVal] at hx
    · simp [linVal] at hy
  have hna : a ≠ nar v.n := fun e => hn (Or.inl e)
  have hnb : b ≠ nar v.n := fun e => hn (Or.inr e)
  have hna' : a' ≠ nar u.n := fun e => hna (na.mp e)
  have hnb' : b' ≠ nar u.n := fun e => hnb (nb.mp e)
  have qa : qv a' = qv a := by rw [linVal_qv hna', linVal_qv hna] at va; exact Option.some.inj va
  have qb : qv b' = qv b := by rw [linVal_qv hnb', linVal_qv hnb] at vb; exact Option.some.inj vb
  by_cases hz : a = 0#v.n ∨ b = 0#v.n
  · have z : qv a * qv b = 0 := by rcases hz with rfl | rfl <;> simp [qv_zero]
    have rz : ∀ w : W, w.src.fmt.rq (0 : ℚ) = 0 := fun w => by have := rq_qv (w := w) 0#w.n; rwa [qv_zero] at this
    refine ⟨0#u.n, ea, eb, by rw [linMultiplication_eq hna' hnb', qa, qb, z, rz, linEnc_zero], ?_,
      fun _ => by rw [linMultiplication_eq hna hnb, z, rz, linEnc_zero, reduce_zero h]⟩
    intro x y hx hy _
    rw [linVal_qv hna] at hx; rw [linVal_qv hnb] at hy
    rw [← Option.some.inj hx, ← Option.some.inj hy, z, linVal_qv (zero_ne_nar u), qv_zero]
  have ra : Regular a := ⟨fun e => hz (Or.inl e), hna⟩
  have rb : Regular b := ⟨fun e => hz (Or.inr e), hnb⟩
  obtain ⟨c, ec, rc, hc, hr⟩ := lin_mul_wider_reg h ra rb (a' := a') (b' := b') ⟨fun e => ra.1 (za.mp e), hna'⟩
    ⟨fun e => rb.1 (zb.mp e), hnb'⟩ qa qb
  refine ⟨c, ea, eb, ec, ?_, hr⟩
  intro x y hx hy hxy
  rw [linVal_qv hna] at hx; rw [linVal_qv hnb] at hy
  rw [← Option.some.inj hx, ← Option.some.inj hy] at hxy ⊢
  rcases hxy with z | ⟨h1, h2⟩
  · exact absurd z (mul_ne_zero (qv_ne ra) (qv_ne rb))
  · rw [linVal_qv rc.2, hc h1 h2]

/-- A product that 16 bits do not hold. -/
example : linVal (0x4001#16 : T .w16) = some (1 + 1 / 2048) ∧ expand .w16 .w32 0x4001#16 = .ok 0x40010000#32 ∧
    linMultiplication .w32 0x40010000#32 0x40010000#32 = .ok 0x40020020#32 ∧
    linVal (0x40020020#32 : T .w32) = some ((1 + 1 / 2048) * (1 + 1 / 2048)) ∧
    reduce .w32 .w16 0x40020020#32 = .ok 0x4002#16 ∧ linMultiplication .w16 0x4001#16 0x4001#16 = .ok 0x4002#16 := by
  decide +kernel

/-- C115 for 32 bits ends before the narrowing: the 32-bit product is rounded twice, to double precision and
to the takum, and can differ from the narrowed exact product. -/
theorem lin32_multiplication_wider_refuted :
    ∃ (a b : T .w32) (a' b' c : T .w64) (r s : T .w32), expand .w32 .w64 a = .ok a' ∧ expand .w32 .w64 b = .ok b' ∧
      linMultiplication .w64 a' b' = .ok c ∧ reduce .w64 .w32 c = .ok r ∧ linMultiplication .w32 a b = .ok s ∧ r ≠ s :=
  ⟨0x40000005#32, 0x40CCCCCD#32, 0x4000000500000000#64, 0x40CCCCCD00000000#64, 0x40CCCCD280000020#64, 0x40CCCCD3#32,
    0x40CCCCD2#32, by decide +kernel⟩

end Takum
