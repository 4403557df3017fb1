import Verif.Props.LinNearest

/-! # Correct rounding from gaps: results that are not numbers of the intermediate format -/

namespace Takum
open Spec

/-- The number at a position halfway between two takums. -/
theorem mid_sig {w : W} {μ : ℚ} {j : ℤ} (hj : μ * 2 ^ (w.n - 4) = j) :
    ∃ k : ℤ, lam μ = k * (2 : ℚ) ^ (⌊μ⌋ - (w.n - 4 : ℕ)) ∧ 2 ^ (w.n - 4) ≤ k ∧ k < 2 ^ (w.n - 4 + 1) := by
  obtain ⟨b1, b2⟩ := lam_bounds μ
  have hp : (0 : ℚ) < (2 : ℚ) ^ (⌊μ⌋ - (w.n - 4 : ℕ)) := zpow_pos (by norm_num) _
  have e : lam μ = ((2 ^ (w.n - 4) + (j - ⌊μ⌋ * 2 ^ (w.n - 4)) : ℤ) : ℚ) * (2 : ℚ) ^ (⌊μ⌋ - (w.n - 4 : ℕ)) := by
    unfold lam Int.fract
    push_cast; rw [← hj, zpow_sub₀ (by norm_num), zpow_natCast]; field_simp
  set k0 : ℤ := 2 ^ (w.n - 4) + (j - ⌊μ⌋ * 2 ^ (w.n - 4)) with hk0
  refine ⟨k0, e, ?_, ?_⟩
  · rw [e] at b1
    have : (2 : ℚ) ^ ⌊μ⌋ = 2 ^ (w.n - 4) * (2 : ℚ) ^ (⌊μ⌋ - (w.n - 4 : ℕ)) := by
      rw [← zpow_natCast, ← zpow_add₀ (by norm_num)]; congr 1; ring
    rw [this] at b1
    have h := le_of_mul_le_mul_right b1 hp
    exact_mod_cast h
  · rw [e] at b2
    have : (2 : ℚ) ^ (⌊μ⌋ + 1) = 2 ^ (w.n - 4 + 1) * (2 : ℚ) ^ (⌊μ⌋ - (w.n - 4 : ℕ)) := by
      rw [← zpow_natCast, ← zpow_add₀ (by norm_num)]; congr 1; push_cast; ring
    rw [this] at b2
    have h := lt_of_mul_lt_mul_right b2 hp.le
    exact_mod_cast h

/-- Positions halfway between two takums. -/
def IsMid (w : W) (μ : ℚ) : Prop := (∃ j : ℤ, μ * 2 ^ (w.n - 4) = j) ∧ -256 ≤ μ ∧ μ < 256

theorem isMid {w : W} (t t' : T w) : IsMid w ((ell t + ell t') / 2) := by
  have h8 := w.n_pos
  obtain ⟨i, hi⟩ := ell_fine (by omega : 5 ≤ w.n) t
  obtain ⟨j, hj⟩ := ell_fine (by omega : 5 ≤ w.n) t'
  have a1 := abs_lt.mp (abs_ell_lt t)
  have a2 := abs_lt.mp (abs_ell_lt t')
  refine ⟨⟨i + j, ?_⟩, by linarith, by linarith⟩
  push_cast
  rw [← hi, ← hj, show w.n - 4 = (w.n - 5) + 1 by omega, pow_succ]; ring

theorem mid_in {w : W} (hw : w = .w8 ∨ w = .w16) {μ : ℚ} (h : IsMid w μ) {s : ℤ} (hs : s = 0 ∨ s = 1 ∨ s = -1) :
    (sumFmt w).In (lam μ * (1 + s * (2 : ℚ) ^ (-(gapK w : ℤ)))) := by
  obtain ⟨h1, h2, h3, h4, h5, h6⟩ := sumFmt_facts hw
  obtain ⟨⟨j, hj⟩, m1, m2⟩ := h
  have h8 := w.n_pos
  obtain ⟨k, e, k1, k2⟩ := mid_sig hj
  have f1 : -256 ≤ ⌊μ⌋ := by rw [Int.le_floor]; push_cast; linarith
  have f2 : ⌊μ⌋ < 256 := by rw [Int.floor_lt]; push_cast; linarith
  have kp : 0 < k := lt_of_lt_of_le (by positivity) k1
  apply sumFmt_in hw (k := k * 2 ^ gapK w + s * k) (e := ⌊μ⌋ - (w.n - 4 : ℕ) - gapK w)
  · rw [e, zpow_sub₀ (by norm_num) _ (gapK w : ℤ), zpow_natCast, zpow_neg, zpow_natCast]
    push_cast; field_simp
  · have p1 : (1 : ℤ) ≤ 2 ^ gapK w := one_le_pow₀ (by norm_num)
    have p2 : (2 : ℤ) ^ (w.n - 4 + 1) ≤ 2 ^ gapK w := pow_le_pow_right₀ (by norm_num) (by omega)
    have hk : |k * 2 ^ gapK w + s * k| ≤ k * (2 ^ gapK w + 1) := by
      rw [abs_le]
      rcases hs with rfl | rfl | rfl <;> constructor <;> nlinarith
    have : (2 : ℤ) ^ (gapK w + (w.n - 5) + 2) = 2 ^ (w.n - 4 + 1) * 2 ^ gapK w := by
      rw [← pow_add]; congr 1; omega
    rw [this]
    nlinarith
  · omega
  · omega

theorem sumFmt_src {w : W} (hw : w = .w8 ∨ w = .w16) {v : ℚ} (hv : (sumFmt w).In v) : w.src.fmt.In v := by
  rcases hw with rfl | rfl
  · exact hv.mono (by decide) (by decide) (by decide)
  · exact hv.mono (by decide) (by decide) (by decide)

theorem ell_le_of_toInt {w : W} {a b : T w} (ha : Regular a) (hb : Regular b) (ma : a.msb = false) (mb : b.msb = false)
    (h : a.toInt ≤ b.toInt) : ell a ≤ ell b := by
  rw [← qv_le_iff ha.2 hb.2, qv_regular ha, qv_regular hb] at h
  unfold lv at h
  rw [ma, mb] at h
  simp only [sg, Bool.false_eq_true, if_false, one_mul] at h
  exact lam_strictMono.le_iff_le.mp h

theorem linEnc_pos {w : W} {r : ℚ} (hr : w.src.fmt.In r) (h0 : 0 < r) :
    Regular (linEnc w r) ∧ (linEnc w r).msb = false := by
  obtain ⟨f1, f2, f3, f4⟩ := linEnc_facts hr
  refine ⟨⟨fun e => h0.ne' (f2.mpr e), f1⟩, ?_⟩
  have := f4.mp h0
  rw [BitVec.msb_eq_toInt]
  simp only [decide_eq_false_iff_not, not_lt]; omega

/-- A positive number `Q` whose value in the intermediate format is `r` is rounded correctly if it keeps
its distance from all numbers halfway between takums. -/
theorem gap_nearest {w : W} (hw : w = .w8 ∨ w = .w16) {r : ℚ} (hr : w.src.fmt.In r) (r0 : 0 < r) {Q : ℝ}
    (hlo : ∀ g : ℚ, w.src.fmt.In g → (g : ℝ) ≤ Q → g ≤ r) (hhi : ∀ g : ℚ, w.src.fmt.In g → Q ≤ (g : ℝ) → r ≤ g)
    (hgap : ∀ μ : ℚ, IsMid w μ → Q = (lam μ : ℝ) ∨ ((lam μ * (1 + (2 : ℚ) ^ (-(gapK w : ℤ))) : ℚ) : ℝ) ≤ Q ∨
      Q ≤ ((lam μ * (1 - (2 : ℚ) ^ (-(gapK w : ℤ))) : ℚ) : ℝ)) :
    ∀ t' : T w, Regular t' → t'.msb = false →
      (ell (linEnc w r) < ell t' → Q < lam ((ell (linEnc w r) + ell t') / 2) ∨
        (Q = lam ((ell (linEnc w r) + ell t') / 2) ∧ (linEnc w r).toNat % 2 = 0)) ∧
      (ell t' < ell (linEnc w r) → lam ((ell (linEnc w r) + ell t') / 2) < Q ∨
        (Q = lam ((ell (linEnc w r) + ell t') / 2) ∧ (linEnc w r).toNat % 2 = 0)) := by
  intro t' ht' mt'
  have h8 := w.n_pos
  obtain ⟨rt, mt⟩ := linEnc_pos hr r0
  set t := linEnc w r with hdt
  set μ := (ell t + ell t') / 2 with hμ
  have hm : IsMid w μ := isMid t t'
  have lp := lam_pos μ
  set ε : ℚ := (2 : ℚ) ^ (-(gapK w : ℤ)) with hε
  have ε0 : 0 < ε := zpow_pos (by norm_num) _
  have ε1 : ε ≤ 1 / 2 := by
    rw [hε]
    calc (2 : ℚ) ^ (-(gapK w : ℤ)) ≤ (2 : ℚ) ^ (-1 : ℤ) :=
          zpow_le_zpow_right₀ (by norm_num) (by have := (sumFmt_facts hw).2.2.2.1; omega)
      _ = 1 / 2 := by norm_num
  -- the three numbers
  have i0 : (sumFmt w).In (lam μ) := by
    have := mid_in hw hm (s := 0) (Or.inl rfl); simpa using this
  have i1 : (sumFmt w).In (lam μ * (1 + ε)) := by
    have := mid_in hw hm (s := 1) (Or.inr (Or.inl rfl))
    rw [← hε] at this
    push_cast at this
    rwa [one_mul] at this
  have i2 : (sumFmt w).In (lam μ * (1 - ε)) := by
    have := mid_in hw hm (s := -1) (Or.inr (Or.inr rfl))
    rw [← hε] at this
    push_cast at this
    rwa [neg_one_mul, ← sub_eq_add_neg] at this
  have near : ∀ g : ℚ, 0 < g → (sumFmt w).In g → NearestEll false (lamInv g) (linEnc w g) := by
    intro g hg hi
    have := (exact_facts hw hg.ne' hi).2
    rwa [decide_eq_false (not_lt.mpr hg.le), abs_of_pos hg] at this
  have tie : Q = (lam μ : ℝ) → ell t ≠ ell t' → t.toNat % 2 = 0 := by
    intro hq hne
    have hrl : r = lam μ := le_antisymm (hhi _ (sumFmt_src hw i0) hq.le) (hlo _ (sumFmt_src hw i0) hq.ge)
    have hn := near _ lp i0
    rw [← hrl, ← hdt, hrl, lamInv_lam] at hn
    have he : |ell t - μ| = |ell t' - μ| := by
      rw [hμ, show ell t - (ell t + ell t') / 2 = -((ell t' - ell t) / 2) by ring,
        show ell t' - (ell t + ell t') / 2 = (ell t' - ell t) / 2 by ring, abs_neg]
    rcases hn.2.2 t' ht' mt' with h | ⟨_, h | h⟩
    · exact absurd he h.ne
    · exact absurd (by rw [h]) hne
    · exact h
  have near' : ∀ g : ℚ, 0 < g → (sumFmt w).In g →
      Regular (linEnc w g) ∧ (linEnc w g).msb = false ∧ |ell (linEnc w g) - lamInv g| ≤ |ell t' - lamInv g| := by
    intro g hg hi
    obtain ⟨n1, n2, n3⟩ := near g hg hi
    refine ⟨n1, n2, ?_⟩
    rcases n3 t' ht' mt' with h | ⟨h, _⟩
    · exact h.le
    · exact h.le
  constructor
  · intro hlt
    rcases hgap μ hm with h | h | h
    · exact Or.inr ⟨h, tie h hlt.ne⟩
    · exfalso
      set g := lam μ * (1 + ε) with hg
      have gp : 0 < g := by positivity
      have gμ : lam μ < g := by rw [hg]; nlinarith
      obtain ⟨n1, n2, n3⟩ := near' g gp i1
      have hmo := linEnc_mono (w := w) (sumFmt_src hw i1) hr (hlo _ (sumFmt_src hw i1) h)
      have hle := ell_le_of_toInt n1 rt n2 mt hmo
      have hy : μ < lamInv g := by
        rw [← lam_strictMono.lt_iff_lt, lam_lamInv gp]; exact gμ
      have hu : ell (linEnc w g) < lamInv g := by linarith
      rw [abs_of_neg (by linarith)] at n3
      rcases le_or_gt (lamInv g) (ell t') with hc | hc
      · rw [abs_of_nonneg (by linarith)] at n3; linarith
      · rw [abs_of_neg (by linarith)] at n3; linarith
    · left
      refine lt_of_le_of_lt h ?_
      have : lam μ * (1 - ε) < lam μ := by nlinarith
      exact_mod_cast this
  · intro hlt
    rcases hgap μ hm with h | h | h
    · exact Or.inr ⟨h, tie h hlt.ne'⟩
    · left
      refine lt_of_lt_of_le ?_ h
      have : lam μ < lam μ * (1 + ε) := by nlinarith
      exact_mod_cast this
    · exfalso
      set g := lam μ * (1 - ε) with hg
      have gp : 0 < g := mul_pos lp (by linarith)
      have gμ : g < lam μ := by rw [hg]; nlinarith
      obtain ⟨n1, n2, n3⟩ := near' g gp i2
      have hmo := linEnc_mono (w := w) hr (sumFmt_src hw i2) (hhi _ (sumFmt_src hw i2) h)
      have hle := ell_le_of_toInt rt n1 mt n2 hmo
      have hy : lamInv g < μ := by
        rw [← lam_strictMono.lt_iff_lt, lam_lamInv gp]; exact gμ
      rw [abs_of_pos (by linarith)] at n3
      rcases le_or_gt (ell t') (lamInv g) with hc | hc
      · rw [abs_of_nonpos (by linarith)] at n3; linarith
      · rw [abs_of_pos (by linarith)] at n3; linarith

/-- The same for a rational number, as `NearestEll`. -/
theorem gap_nearest_ell {w : W} {q : ℚ} (q0 : 0 < q) {t : T w} (rt : Regular t) (mt : t.msb = false)
    (h : ∀ t' : T w, Regular t' → t'.msb = false →
      (ell t < ell t' → (q : ℝ) < lam ((ell t + ell t') / 2) ∨ ((q : ℝ) = lam ((ell t + ell t') / 2) ∧ t.toNat % 2 = 0)) ∧
      (ell t' < ell t → lam ((ell t + ell t') / 2) < (q : ℝ) ∨ ((q : ℝ) = lam ((ell t + ell t') / 2) ∧ t.toNat % 2 = 0))) :
    NearestEll false (lamInv q) t := by
  have h8 := w.n_pos
  refine ⟨rt, mt, ?_⟩
  intro t' rt' mt'
  obtain ⟨c1, c2⟩ := h t' rt' mt'
  rcases lt_trichotomy (ell t) (ell t') with hl | hl | hl
  · rcases c1 hl with c | ⟨c, ev⟩
    · left
      have c' : lam (lamInv q) < lam ((ell t + ell t') / 2) := by rw [lam_lamInv q0]; exact_mod_cast c
      have := lam_strictMono.lt_iff_lt.mp c'
      have hu : lamInv q < ell t' := by linarith
      rw [abs_of_pos (sub_pos.mpr hu), abs_lt]
      constructor <;> linarith
    · right
      have c' : q = lam ((ell t + ell t') / 2) := by exact_mod_cast c
      refine ⟨?_, Or.inr ev⟩
      rw [c', lamInv_lam, show ell t - (ell t + ell t') / 2 = -((ell t' - ell t) / 2) by ring,
        show ell t' - (ell t + ell t') / 2 = (ell t' - ell t) / 2 by ring, abs_neg]
  · right
    exact ⟨by rw [hl], Or.inl (ell_inj (by omega) (by rw [mt, mt']) hl.symm)⟩
  · rcases c2 hl with c | ⟨c, ev⟩
    · left
      have c' : lam ((ell t + ell t') / 2) < lam (lamInv q) := by rw [lam_lamInv q0]; exact_mod_cast c
      have := lam_strictMono.lt_iff_lt.mp c'
      have hu : ell t' < lamInv q := by linarith
      rw [abs_of_neg (sub_neg.mpr hu), abs_lt]
      constructor <;> linarith
    · right
      have c' : q = lam ((ell t + ell t') / 2) := by exact_mod_cast c
      refine ⟨?_, Or.inr ev⟩
      rw [c', lamInv_lam, show ell t - (ell t + ell t') / 2 = -((ell t' - ell t) / 2) by ring,
        show ell t' - (ell t + ell t') / 2 = (ell t' - ell t) / 2 by ring, abs_neg]

theorem nearestEll_neg {w : W} {s : Bool} {x : ℚ} {t : T w} (h : NearestEll s x t) : NearestEll (!s) x (-t) := by
  have h8 := w.n_pos
  obtain ⟨rt, mt, hmin⟩ := h
  obtain ⟨n1, -, n3, n4⟩ := regular_neg (by omega) rt
  have par : ∀ u : T w, (-u).toNat % 2 = u.toNat % 2 := by
    intro u
    have hu := u.isLt
    rw [BitVec.toNat_neg]
    have : 2 ^ w.n % 2 = 0 := by
      rw [show w.n = (w.n - 1) + 1 by omega, pow_succ]; simp
    rcases Nat.eq_zero_or_pos u.toNat with h | h
    · rw [h]; simp
    · rw [Nat.mod_eq_of_lt (show 2 ^ w.n - u.toNat < 2 ^ w.n by omega)]; omega
  refine ⟨n3, by rw [n1, mt], ?_⟩
  intro t' rt' mt'
  obtain ⟨n1', -, n3', n4'⟩ := regular_neg (by omega) rt'
  have := hmin (-t') n3' (by rw [n1', mt']; simp)
  rw [n4', ← n4] at this
  rcases this with h | ⟨h, h' | h'⟩
  · exact Or.inl h
  · exact Or.inr ⟨h, Or.inl (by rw [← h', BitVec.neg_neg])⟩
  · exact Or.inr ⟨h, Or.inr (by rw [par]; exact h')⟩

/-- The gap between a quotient of two takums and the numbers halfway between takums. -/
theorem quot_gap {w : W} (hw : w = .w8 ∨ w = .w16) {x y : ℚ} {ka kb ea eb : ℤ} (hx : x = ka * (2 : ℚ) ^ ea)
    (hy : y = kb * (2 : ℚ) ^ eb) (a0 : 0 < ka) (b0 : 0 < kb) (ka' : ka < 2 ^ (w.n - 4)) (kb' : kb < 2 ^ (w.n - 4))
    {μ : ℚ} (h : IsMid w μ) :
    x / y = lam μ ∨ lam μ * (1 + (2 : ℚ) ^ (-(gapK w : ℤ))) ≤ x / y ∨ x / y ≤ lam μ * (1 - (2 : ℚ) ^ (-(gapK w : ℤ))) := by
  obtain ⟨⟨j, hj⟩, m1, m2⟩ := h
  have h8 := w.n_pos
  obtain ⟨k, e, k1, k2⟩ := mid_sig hj
  have kp : 0 < k := lt_of_lt_of_le (by positivity) k1
  set eg := ⌊μ⌋ - (w.n - 4 : ℕ) with heg
  set ε : ℚ := (2 : ℚ) ^ (-(gapK w : ℤ)) with hε
  have ε0 : 0 < ε := zpow_pos (by norm_num) _
  have hεk : ε * (k * kb) ≤ 1 := by
    have h1 : k * kb < 2 ^ gapK w := by
      calc k * kb < 2 ^ (w.n - 4 + 1) * 2 ^ (w.n - 4) := mul_lt_mul'' k2 kb' kp.le b0.le
        _ = 2 ^ (w.n - 4 + 1 + (w.n - 4)) := (pow_add _ _ _).symm
        _ ≤ _ := pow_le_pow_right₀ (by norm_num) (by rcases hw with rfl | rfl <;> decide)
    have h2 : ((k * kb : ℤ) : ℚ) < 2 ^ gapK w := by exact_mod_cast h1
    have εK : ε * 2 ^ gapK w = 1 := by rw [hε, zpow_neg, zpow_natCast]; field_simp
    rw [← εK]
    push_cast at h2
    exact mul_le_mul_of_nonneg_left h2.le ε0.le
  have ε2 : ε ≤ 1 / 2 := by
    rw [hε]
    calc (2 : ℚ) ^ (-(gapK w : ℤ)) ≤ (2 : ℚ) ^ (-1 : ℤ) :=
          zpow_le_zpow_right₀ (by norm_num) (by have := (sumFmt_facts hw).2.2.2.1; omega)
      _ = 1 / 2 := by norm_num
  have yp : 0 < y := by rw [hy]; exact mul_pos (by exact_mod_cast b0) (zpow_pos (by norm_num) _)
  have lp := lam_pos μ
  rw [div_eq_iff yp.ne', le_div_iff₀ yp, div_le_iff₀ yp]
  -- everything over `2^eb`
  have q0 : (0 : ℚ) < (2 : ℚ) ^ (eg + eb) := zpow_pos (by norm_num) _
  have ly : lam μ * y = (k * kb : ℤ) * (2 : ℚ) ^ (eg + eb) := by
    rw [e, hy, zpow_add₀ (by norm_num)]; push_cast; ring
  have r1 : lam μ * (1 + ε) * y = lam μ * y + ε * (lam μ * y) := by ring
  have r2 : lam μ * (1 - ε) * y = lam μ * y - ε * (lam μ * y) := by ring
  have small : ε * (lam μ * y) ≤ (2 : ℚ) ^ (eg + eb) := by
    rw [ly]; push_cast
    calc ε * (k * kb * (2 : ℚ) ^ (eg + eb)) = ε * (k * kb) * (2 : ℚ) ^ (eg + eb) := by ring
      _ ≤ 1 * (2 : ℚ) ^ (eg + eb) := mul_le_mul_of_nonneg_right hεk q0.le
      _ = _ := one_mul _
  rw [r1, r2]
  by_cases hc : eg + eb ≤ ea
  · obtain ⟨d, hd⟩ := Int.eq_ofNat_of_zero_le (sub_nonneg.mpr hc)
    have hx' : x = ((ka * 2 ^ d : ℤ) : ℚ) * (2 : ℚ) ^ (eg + eb) := by
      rw [hx, show ea = (eg + eb) + d by omega, zpow_add₀ (by norm_num), zpow_natCast]; push_cast; ring
    rcases lt_trichotomy (ka * 2 ^ d) (k * kb) with hl | hl | hl
    · right; right
      have : ((ka * 2 ^ d : ℤ) : ℚ) + 1 ≤ ((k * kb : ℤ) : ℚ) := by exact_mod_cast hl
      rw [hx', ly] 
      rw [ly] at small
      nlinarith
    · left; rw [hx', hl, ly]
    · right; left
      have : ((k * kb : ℤ) : ℚ) + 1 ≤ ((ka * 2 ^ d : ℤ) : ℚ) := by exact_mod_cast hl
      rw [hx', ly]
      rw [ly] at small
      nlinarith
  · right; right
    have h1 : x ≤ lam μ * y / 2 := by
      have : (2 : ℚ) ^ ea ≤ (2 : ℚ) ^ (eg + eb - 1) := zpow_le_zpow_right₀ (by norm_num) (by omega)
      rw [zpow_sub_one₀ (by norm_num)] at this
      have hkk : (ka : ℚ) ≤ ((k * kb : ℤ) : ℚ) := by
        have : ka ≤ k * kb := by nlinarith
        exact_mod_cast this
      have a0' : (0 : ℚ) < ka := by exact_mod_cast a0
      rw [hx, ly]
      calc (ka : ℚ) * (2 : ℚ) ^ ea ≤ ka * ((2 : ℚ) ^ (eg + eb) * 2⁻¹) := mul_le_mul_of_nonneg_left this a0'.le
        _ ≤ ((k * kb : ℤ) : ℚ) * ((2 : ℚ) ^ (eg + eb) * 2⁻¹) := mul_le_mul_of_nonneg_right hkk (by positivity)
        _ = _ := by ring
    have := mul_le_mul_of_nonneg_right ε2 (mul_pos lp yp).le
    linarith

/-- The gap between a square root of a takum and the numbers halfway between takums (16 bits). -/
theorem sqrt_gap {x : ℚ} {ka ea : ℤ} (hx : x = ka * (2 : ℚ) ^ ea) (a0 : 0 < ka) (ka' : ka < 2 ^ 12)
    {μ : ℚ} (h : IsMid .w16 μ) :
    x = lam μ ^ 2 ∨ (lam μ * (1 + (2 : ℚ) ^ (-(gapK .w16 : ℤ)))) ^ 2 ≤ x ∨
      x ≤ (lam μ * (1 - (2 : ℚ) ^ (-(gapK .w16 : ℤ)))) ^ 2 := by
  obtain ⟨⟨j, hj⟩, m1, m2⟩ := h
  obtain ⟨k, e, k1, k2⟩ := mid_sig hj
  simp only [W.n, show 16 - 4 = 12 from rfl, Nat.reduceAdd] at k1 k2 e
  have kp : 0 < k := lt_of_lt_of_le (by positivity) k1
  set eg := ⌊μ⌋ - (12 : ℕ) with heg
  have hε : (2 : ℚ) ^ (-(gapK .w16 : ℤ)) = 1 / 2 ^ 30 := by simp only [gapK]; norm_num
  rw [hε]
  have lp := lam_pos μ
  have q0 : (0 : ℚ) < (2 : ℚ) ^ (2 * eg) := zpow_pos (by norm_num) _
  have ly : lam μ ^ 2 = (k ^ 2 : ℤ) * (2 : ℚ) ^ (2 * eg) := by
    rw [e, mul_pow, two_mul, zpow_add₀ (by norm_num)]; push_cast; ring
  have hk2 : k ^ 2 < 2 ^ 26 := by nlinarith
  have hk2' : ((k ^ 2 : ℤ) : ℚ) < 2 ^ 26 := by exact_mod_cast hk2
  have s0 : 0 < lam μ ^ 2 := by positivity
  have small : lam μ ^ 2 / 2 ^ 26 ≤ (2 : ℚ) ^ (2 * eg) := by
    rw [div_le_iff₀ (by positivity), ly, mul_comm]; exact mul_le_mul_of_nonneg_left hk2'.le q0.le
  have r1 : (lam μ * (1 + 1 / 2 ^ 30)) ^ 2 ≤ lam μ ^ 2 + lam μ ^ 2 / 2 ^ 26 := by
    rw [mul_pow]; nlinarith
  have r2 : lam μ ^ 2 - lam μ ^ 2 / 2 ^ 26 ≤ (lam μ * (1 - 1 / 2 ^ 30)) ^ 2 := by
    rw [mul_pow]; nlinarith
  by_cases hc : 2 * eg ≤ ea
  · obtain ⟨d, hd⟩ := Int.eq_ofNat_of_zero_le (sub_nonneg.mpr hc)
    have hx' : x = ((ka * 2 ^ d : ℤ) : ℚ) * (2 : ℚ) ^ (2 * eg) := by
      rw [hx, show ea = (2 * eg) + d by omega, zpow_add₀ (by norm_num), zpow_natCast]; push_cast; ring
    rcases lt_trichotomy (ka * 2 ^ d) (k ^ 2) with hl | hl | hl
    · right; right
      have : ((ka * 2 ^ d : ℤ) : ℚ) + 1 ≤ ((k ^ 2 : ℤ) : ℚ) := by exact_mod_cast hl
      refine le_trans ?_ r2
      have : x + (2 : ℚ) ^ (2 * eg) ≤ lam μ ^ 2 := by rw [hx', ly]; nlinarith
      linarith
    · left; rw [hx', hl, ly]
    · right; left
      have : ((k ^ 2 : ℤ) : ℚ) + 1 ≤ ((ka * 2 ^ d : ℤ) : ℚ) := by exact_mod_cast hl
      refine le_trans r1 ?_
      have : lam μ ^ 2 + (2 : ℚ) ^ (2 * eg) ≤ x := by rw [hx', ly]; nlinarith
      linarith
  · right; right
    refine le_trans ?_ r2
    have h1 : x ≤ lam μ ^ 2 / 2 := by
      have : (2 : ℚ) ^ ea ≤ (2 : ℚ) ^ (2 * eg - 1) := zpow_le_zpow_right₀ (by norm_num) (by omega)
      rw [zpow_sub_one₀ (by norm_num)] at this
      have hkk : (ka : ℚ) ≤ ((k ^ 2 : ℤ) : ℚ) := by
        have : ka ≤ k ^ 2 := by nlinarith
        exact_mod_cast this
      have a0' : (0 : ℚ) < ka := by exact_mod_cast a0
      rw [hx, ly]
      calc (ka : ℚ) * (2 : ℚ) ^ ea ≤ ka * ((2 : ℚ) ^ (2 * eg) * 2⁻¹) := mul_le_mul_of_nonneg_left this a0'.le
        _ ≤ ((k ^ 2 : ℤ) : ℚ) * ((2 : ℚ) ^ (2 * eg) * 2⁻¹) := mul_le_mul_of_nonneg_right hkk (by positivity)
        _ = _ := by ring
    linarith

end Takum
