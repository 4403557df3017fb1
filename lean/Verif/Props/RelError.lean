import Verif.Props.Spacing
import Verif.Props.LinWide
import Verif.Props.LinDivNearest
import Verif.Props.LogAlmost

/-!
# C112: the relative error of an arithmetic operation
-/

namespace Takum
open Spec

namespace Spec

/-- The magnitude of `v` is between those of the smallest and of the largest positive linear takum. -/
def InRangeLin (w : W) (v : ℝ) : Prop :=
  ∃ s m : ℚ, linVal (1#w.n : T w) = some s ∧ linVal (BitVec.ofNat w.n (2 ^ (w.n - 1) - 1) : T w) = some m ∧ (s : ℝ) ≤ |v| ∧ |v| ≤ m

/-- The same for logarithmic takums. -/
def InRangeLog (w : W) (v : ℝ) : Prop :=
  ∃ s m : ℝ, logVal (1#w.n : T w) = some s ∧ logVal (BitVec.ofNat w.n (2 ^ (w.n - 1) - 1) : T w) = some m ∧ s ≤ |v| ∧ |v| ≤ m

end Spec

theorem next_facts {w : W} {t : T w} (rt : Regular t) (h1 : t ≠ -1#w.n) (h2 : t ≠ BitVec.ofNat w.n (2 ^ (w.n - 1) - 1)) :
    Regular (t + 1#w.n) ∧ (t + 1#w.n).msb = t.msb ∧ (t + 1#w.n).toInt = t.toInt + 1 := by
  obtain ⟨r1, r2⟩ := rt
  have key : (t + 1#w.n).toNat = t.toNat + 1 ∧ t.toNat + 1 ≠ 2 ^ (w.n - 1) := by
    have hlt := t.isLt
    have e1 : t.toNat ≠ 2 ^ w.n - 1 := fun e => h1 (by
      apply BitVec.eq_of_toNat_eq; rw [e]; cases w <;> decide)
    have e2 : t.toNat ≠ 2 ^ (w.n - 1) - 1 := fun e => h2 (by
      apply BitVec.eq_of_toNat_eq; rw [e, BitVec.toNat_ofNat]; cases w <;> decide)
    have hp : 0 < 2 ^ (w.n - 1) := by positivity
    refine ⟨?_, by omega⟩
    rw [BitVec.toNat_add, show (1#w.n).toNat = 1 by cases w <;> rfl]
    exact Nat.mod_eq_of_lt (by omega)
  obtain ⟨k1, k2⟩ := key
  have n0 : (t + 1#w.n) ≠ 0#w.n := fun e => by
    have := congrArg BitVec.toNat e
    rw [k1] at this; simp at this
  have nn : (t + 1#w.n) ≠ nar w.n := fun e => by
    have := congrArg BitVec.toNat e
    rw [k1] at this
    exact k2 (this.trans (by cases w <;> decide))
  have hm : (t + 1#w.n).msb = t.msb := by
    rw [BitVec.msb_eq_decide, BitVec.msb_eq_decide, k1]
    congr 1
    apply propext
    constructor <;> omega
  refine ⟨⟨n0, nn⟩, hm, ?_⟩
  rw [BitVec.toInt_eq_msb_cond, BitVec.toInt_eq_msb_cond, hm, k1]
  split <;> push_cast <;> ring

theorem max_facts (w : W) : Regular (BitVec.ofNat w.n (2 ^ (w.n - 1) - 1) : T w) ∧ Regular (1#w.n : T w) ∧
    (BitVec.ofNat w.n (2 ^ (w.n - 1) - 1) : T w).toInt = 2 ^ (w.n - 1) - 1 := by
  unfold Regular; cases w <;> decide

/-- A faithful result is the number itself or one of two neighbours that enclose it. -/
theorem bracket {w : W} {f : T w → ℝ} (fneg : ∀ u, Regular u → f (-u) = -f u) (fsg : ∀ u, Regular u → (f u < 0 ↔ u.msb = true))
    (fne : ∀ u, Regular u → f u ≠ 0) {v : ℝ} {t : T w} (rt : Regular t) (st : t.msb = true ↔ v < 0)
    (hf : ∀ t', Regular t' → (f t' ≤ v → t'.toInt ≤ t.toInt) ∧ (v ≤ f t' → t.toInt ≤ t'.toInt))
    (v1 : f (1#w.n) ≤ |v|) (v2 : |v| ≤ f (BitVec.ofNat w.n (2 ^ (w.n - 1) - 1))) :
    f t = v ∨ ∃ u : T w, Regular u ∧ Regular (u + 1#w.n) ∧ u.msb = t.msb ∧ (u + 1#w.n).msb = t.msb ∧
      0 < f u * f (u + 1#w.n) ∧ f u < v ∧ v < f (u + 1#w.n) ∧ (t = u ∨ t = u + 1#w.n) := by
  obtain ⟨rM, r1, -⟩ := max_facts w
  have sg_of : ∀ u : T w, Regular u → u.msb = t.msb → (f u < 0 ↔ v < 0) := fun u ru hu => by rw [fsg u ru, hu]; exact st
  have prod : ∀ a b : T w, Regular a → Regular b → a.msb = t.msb → b.msb = t.msb → 0 < f a * f b := fun a b ra rb ha hb => by
    by_cases h : v < 0
    · exact mul_pos_of_neg_of_neg ((sg_of a ra ha).mpr h) ((sg_of b rb hb).mpr h)
    · exact mul_pos (lt_of_le_of_ne (not_lt.mp fun hc => h ((sg_of a ra ha).mp hc)) (fne a ra).symm)
        (lt_of_le_of_ne (not_lt.mp fun hc => h ((sg_of b rb hb).mp hc)) (fne b rb).symm)
  have pos : ∀ u : T w, Regular u → u.msb = false → 0 < f u := fun u ru hu => lt_of_le_of_ne (not_lt.mp fun hc => by
      have := (fsg u ru).mp hc
      rw [hu] at this; exact absurd this (by decide)) (fne u ru).symm
  have pos1 := pos _ r1 (by cases w <;> decide)
  have posM := pos _ rM (by cases w <;> decide)
  rcases lt_trichotomy (f t) v with hlt | heq | hgt
  · right
    have n1 : t ≠ -1#w.n := fun e => by
      have e2 : f t = -f (1#w.n) := by rw [e, fneg _ r1]
      have hv : v < 0 := by rw [← sg_of t rt rfl, e2]; linarith
      rw [abs_of_neg hv] at v1
      linarith
    have n2 : t ≠ BitVec.ofNat w.n (2 ^ (w.n - 1) - 1) := fun e => by
      rw [e] at hlt
      have := le_abs_self v
      linarith
    obtain ⟨ru, mu, iu⟩ := next_facts rt n1 n2
    refine ⟨t, rt, ru, rfl, mu, prod t _ rt ru rfl mu, hlt, ?_, Or.inl rfl⟩
    by_contra hc
    have := (hf _ ru).1 (not_lt.mp hc)
    omega
  · exact Or.inl heq
  · right
    have n1 : t ≠ 1#w.n := fun e => by
      have hv : 0 ≤ v := by
        by_contra hc
        have := (sg_of t rt rfl).mpr (not_le.mp hc)
        rw [e] at this
        linarith
      rw [abs_of_nonneg hv] at v1
      rw [e] at hgt
      linarith
    set u := t + -1#w.n with hu
    have hut : u + 1#w.n = t := by rw [hu, BitVec.add_assoc, BitVec.add_comm (-1#w.n), BitVec.add_right_neg, BitVec.add_zero]
    have ru : Regular u := by
      refine ⟨fun e => ?_, fun e => ?_⟩
      · rw [e] at hut; exact n1 (by rw [← hut]; simp)
      · rw [e] at hut
        have e2 : t = -(BitVec.ofNat w.n (2 ^ (w.n - 1) - 1)) := by rw [← hut]; cases w <;> decide
        have e3 : f t = -f (BitVec.ofNat w.n (2 ^ (w.n - 1) - 1)) := by rw [e2, fneg _ rM]
        rw [e3] at hgt
        have := neg_abs_le v
        linarith
    have g1 : u ≠ -1#w.n := fun e => by rw [e, BitVec.add_comm, BitVec.add_right_neg] at hut; exact rt.1 hut.symm
    have g2 : u ≠ BitVec.ofNat w.n (2 ^ (w.n - 1) - 1) := fun e => by
      rw [e] at hut
      exact rt.2 (by rw [← hut]; cases w <;> decide)
    obtain ⟨-, mu, iu⟩ := next_facts ru g1 g2
    rw [hut] at mu iu
    refine ⟨u, ru, by rw [hut]; exact rt, mu.symm, by rw [hut], by rw [hut]; exact prod u t ru rt mu.symm rfl, ?_, by rw [hut]; exact hgt,
      Or.inr hut.symm⟩
    by_contra hc
    have := (hf _ ru).2 (not_lt.mp hc)
    omega

theorem bracket_lin {w : W} {v : ℝ} {t : T w} (h : FaithfulLin v t) (hr : InRangeLin w v) :
    ∃ z : ℚ, linVal t = some z ∧ ((z : ℝ) = v ∨ ∃ (u : T w) (p q : ℚ), linVal u = some p ∧ linVal (u + 1#w.n) = some q ∧
      Regular u ∧ Regular (u + 1#w.n) ∧ u.msb = t.msb ∧ (u + 1#w.n).msb = t.msb ∧ 0 < p * q ∧ (p : ℝ) < v ∧ v < q) := by
  have h5 : 5 ≤ w.n := by have := w.n_pos; omega
  obtain ⟨rt, st, hf⟩ := h
  obtain ⟨s, m, hs, hm, v1, v2⟩ := hr
  obtain ⟨rM, r1, -⟩ := max_facts w
  refine ⟨lv t, linVal_lv h5 rt, ?_⟩
  rw [linVal_lv h5 r1, Option.some.injEq] at hs
  rw [linVal_lv h5 rM, Option.some.injEq] at hm
  subst hs hm
  rcases bracket (f := fun u : T w => (lv u : ℝ)) (fun u ru => by
      have : lv (-u) = -lv u := by rw [← qv_regular (regular_neg (by omega) ru).2.2.1, qv_neg ru.2, qv_regular ru]
      show ((lv (-u) : ℚ) : ℝ) = -(lv u : ℝ)
      rw [this]; push_cast; rfl) (fun u _ => by rw [← lv_neg_iff]; exact_mod_cast Iff.rfl) (fun u _ => by exact_mod_cast lv_ne u) rt st
      (fun t' rt' => hf t' _ rt' (linVal_lv h5 rt')) v1 v2 with e | ⟨u, ru, ru', mu, mu', pq, g1, g2, -⟩
  · exact Or.inl e
  · exact Or.inr ⟨u, lv u, lv (u + 1#w.n), linVal_lv h5 ru, linVal_lv h5 ru', ru, ru', mu, mu', by exact_mod_cast pq, g1, g2⟩

theorem bracket_log {w : W} {v : ℝ} {t : T w} (h : FaithfulLog v t) (hr : InRangeLog w v) :
    ∃ z : ℝ, logVal t = some z ∧ (z = v ∨ ∃ (u : T w) (p q : ℝ), logVal u = some p ∧ logVal (u + 1#w.n) = some q ∧
      Regular u ∧ Regular (u + 1#w.n) ∧ u.msb = t.msb ∧ (u + 1#w.n).msb = t.msb ∧ 0 < p * q ∧ p < v ∧ v < q) := by
  have h5 : 1 ≤ w.n := by have := w.n_pos; omega
  obtain ⟨rt, st, hf⟩ := h
  obtain ⟨s, m, hs, hm, v1, v2⟩ := hr
  obtain ⟨rM, r1, -⟩ := max_facts w
  set f := fun u : T w => ((sg u.msb : ℚ) : ℝ) * logG (ell u) with hfd
  have hl : ∀ u : T w, Regular u → logVal u = some (f u) := fun u ru => logVal_regular h5 ru
  refine ⟨f t, hl t rt, ?_⟩
  rw [hl _ r1, Option.some.injEq] at hs
  rw [hl _ rM, Option.some.injEq] at hm
  rw [← hs] at v1
  rw [← hm] at v2
  have sgneg : ∀ u, Regular u → (f u < 0 ↔ u.msb = true) := fun u ru => by
    have := logG_pos (ell u)
    show ((sg u.msb : ℚ) : ℝ) * logG (ell u) < 0 ↔ _
    cases u.msb <;> simp [sg, this, this.le]
  rcases bracket (f := f) (fun u ru => by
      obtain ⟨n1, -, -, n2⟩ := regular_neg (by have := w.n_pos; omega) ru
      show ((sg (-u).msb : ℚ) : ℝ) * logG (ell (-u)) = -(((sg u.msb : ℚ) : ℝ) * logG (ell u))
      rw [n1, n2]
      cases u.msb <;> simp [sg]) sgneg (fun u ru => by
      have := logG_pos (ell u)
      show ((sg u.msb : ℚ) : ℝ) * logG (ell u) ≠ 0
      cases u.msb <;> simp [sg, this.ne']) rt st
      (fun t' rt' => hf t' _ rt' (hl t' rt')) v1 v2 with e | ⟨u, ru, ru', mu, mu', pq, g1, g2, -⟩
  · exact Or.inl e
  · exact Or.inr ⟨u, f u, f (u + 1#w.n), hl _ ru, hl _ ru', ru, ru', mu, mu', pq, g1, g2⟩

theorem min_precision {w : W} (hw : w ≠ .w8) (t : T w) : ∃ k, precision w t = .ok k ∧ w.n - 12 ≤ k := by
  have h7 := r_le (by have := w.n_pos; omega : 5 ≤ w.n) t
  exact ⟨_, precision_spec w t, by cases w <;> first | exact absurd rfl hw | (simp only [W.n]; omega)⟩

/-- A result that is nearest up to `δ |v|` and faithful. -/
theorem lin_error {w : W} (hw : w ≠ .w8) {v δ : ℚ} (d0 : 0 ≤ δ) {t : T w} (h : FaithfulLin (v : ℝ) t) (hn : AlmostNearestLin δ v t) (hr : InRangeLin w v) :
    ∃ z : ℚ, linVal t = some z ∧ |z - v| ≤ (1 / 2 ^ (w.n - 11) + δ) * |v| := by
  obtain ⟨z, hz, h1⟩ := bracket_lin h hr
  refine ⟨z, hz, ?_⟩
  have hv := abs_nonneg v
  have hp : (0 : ℚ) < 1 / 2 ^ (w.n - 11) := by positivity
  rcases h1 with e | ⟨u, p, q, hu, hu', ru, ru', mu, mu', pq, g1, g2⟩
  · have : z = v := by exact_mod_cast e
    rw [this, sub_self, abs_zero]; positivity
  · obtain ⟨k, hk, lk⟩ := min_precision hw u
    have half : |v| / 2 ^ (k + 1) ≤ 1 / 2 ^ (w.n - 11) * |v| := by
      have : (2 : ℚ) ^ (w.n - 11) ≤ 2 ^ (k + 1) := pow_le_pow_right₀ (by norm_num) (by cases w <;> first | exact absurd rfl hw | (simp only [W.n] at *; omega))
      rw [div_eq_mul_one_div, mul_comm]
      exact mul_le_mul_of_nonneg_right (one_div_le_one_div_of_le (by positivity) this) hv
    rw [add_mul]
    rcases precision_error_lin w u k hk (Or.inl hw) p q hu hu' pq v g1.le g2.le with g | g
    · have g' : |v - p| ≤ |v| / 2 ^ (k + 1) := by exact_mod_cast g
      have := hn.2.2 u ru mu z p hz hu
      rw [abs_sub_comm] at g'
      linarith
    · have g' : |v - q| ≤ |v| / 2 ^ (k + 1) := by exact_mod_cast g
      have := hn.2.2 _ ru' mu' z q hz hu'
      rw [abs_sub_comm] at g'
      linarith

theorem nearest_almost {w : W} {v : ℚ} {t : T w} (h : NearestLin v t) : AlmostNearestLin 0 v t :=
  ⟨h.1, h.2.1, fun t' rt' mt' a b ha hb => by
    rw [zero_mul, add_zero]
    rcases h.2.2 t' rt' mt' a b ha hb with g | g
    · exact g.le
    · exact g.1.le⟩

/-- What double rounding adds to half a unit: nothing for 16 bits. -/
def opSlack : W → ℚ
  | .w64 => 1 / 2 ^ 53
  | .w32 => 1 / 2 ^ 52
  | _ => 0

/-- C112: a sum, difference, product or quotient of linear takums of 16, 32 or 64 bits that is in the range has a relative error of
at most `2^-5`, `2^-21 + 2^-52`, `2^-53 + 2^-53`. -/
theorem lin_relative_error (w : W) (hw : w ≠ .w8) (a b : T w) (x y : ℚ) (ha : linVal a = some x) (hb : linVal b = some y) :
    (InRangeLin w ((x + y : ℚ) : ℝ) → ∃ t z, linAddition w a b = .ok t ∧ linVal t = some z ∧ |z - (x + y)| ≤ (1 / 2 ^ (w.n - 11) + opSlack w) * |x + y|) ∧
    (InRangeLin w ((x - y : ℚ) : ℝ) → ∃ t z, linSubtraction w a b = .ok t ∧ linVal t = some z ∧ |z - (x - y)| ≤ (1 / 2 ^ (w.n - 11) + opSlack w) * |x - y|) ∧
    (InRangeLin w ((x * y : ℚ) : ℝ) → ∃ t z, linMultiplication w a b = .ok t ∧ linVal t = some z ∧ |z - x * y| ≤ (1 / 2 ^ (w.n - 11) + opSlack w) * |x * y|) ∧
    (InRangeLin w ((x / y : ℚ) : ℝ) → ∃ t z, linDivision w a b = .ok t ∧ linVal t = some z ∧ |z - x / y| ≤ (1 / 2 ^ (w.n - 11) + opSlack w) * |x / y|) := by
  have d0 : 0 ≤ opSlack w := by cases w <;> decide +kernel
  obtain ⟨f1, f2, f3, f4⟩ := lin_arith_faithful w a b x y ha hb
  have h5 : 5 ≤ w.n := by have := w.n_pos; omega
  have ne : ∀ {v : ℚ}, InRangeLin w (v : ℝ) → v ≠ 0 := by
    rintro v ⟨s, m, hs, -, h1, -⟩ hv
    obtain ⟨-, r1, -⟩ := max_facts w
    rw [linVal_lv h5 r1, Option.some.injEq] at hs
    rw [hv, Rat.cast_zero, abs_zero] at h1
    have h2 : s ≤ 0 := by exact_mod_cast h1
    rw [← hs] at h2
    have := (lv_neg_iff _).mp (lt_of_le_of_ne h2 (lv_ne _))
    revert this; cases w <;> decide
  have alm : (x + y ≠ 0 → ∃ t, linAddition w a b = .ok t ∧ AlmostNearestLin (opSlack w) (x + y) t) ∧
    (x - y ≠ 0 → ∃ t, linSubtraction w a b = .ok t ∧ AlmostNearestLin (opSlack w) (x - y) t) ∧
    (x * y ≠ 0 → ∃ t, linMultiplication w a b = .ok t ∧ AlmostNearestLin (opSlack w) (x * y) t) ∧
    (x / y ≠ 0 → ∃ t, linDivision w a b = .ok t ∧ AlmostNearestLin (opSlack w) (x / y) t) := by
    cases w
    · exact absurd rfl hw
    · obtain ⟨g1, g2, g3⟩ := lin16_arith_nearest a b x y ha hb
      refine ⟨fun h => ?_, fun h => ?_, fun h => ?_, fun h => ?_⟩
      · obtain ⟨t, e, n⟩ := g1 h; exact ⟨t, e, nearest_almost (w := .w16) n⟩
      · obtain ⟨t, e, n⟩ := g2 h; exact ⟨t, e, nearest_almost (w := .w16) n⟩
      · obtain ⟨t, e, n⟩ := g3 h; exact ⟨t, e, nearest_almost (w := .w16) n⟩
      · obtain ⟨hx, hy⟩ := div_ne_zero_iff.mp h
        obtain ⟨t, e, n⟩ := (lin16_division_nearest_partial a b x y ha hb hy).1 hx
        exact ⟨t, e, nearest_almost (w := .w16) n⟩
    · exact lin_arith_almost_partial .w32 (Or.inl rfl) a b x y ha hb
    · exact lin_arith_almost_partial .w64 (Or.inr rfl) a b x y ha hb
  obtain ⟨n1, n2, n3, n4⟩ := alm
  have fin : ∀ {v : ℚ} {r : C (T w)}, (∃ t, r = .ok t ∧ FaithfulLin (v : ℝ) t) → (∃ t, r = .ok t ∧ AlmostNearestLin (opSlack w) v t) →
      InRangeLin w v → ∃ t z, r = .ok t ∧ linVal t = some z ∧ |z - v| ≤ (1 / 2 ^ (w.n - 11) + opSlack w) * |v| := by
    rintro v r ⟨t, e, hf⟩ ⟨t', e', hn⟩ hr
    obtain rfl : t = t' := Except.ok.inj (e.symm.trans e')
    obtain ⟨z, hz, hb⟩ := lin_error hw d0 hf hn hr
    exact ⟨t, z, e, hz, hb⟩
  exact ⟨fun h => fin (f1 (ne h)) (n1 (ne h)) h, fun h => fin (f2 (ne h)) (n2 (ne h)) h, fun h => fin (f3 (ne h)) (n3 (ne h)) h,
    fun h => fin (f4 (ne h)) (n4 (ne h)) h⟩

/-- Not vacuous: a third is in the range of 16 bits, is not a takum and is returned with an error that is not 0. -/
example : InRangeLin .w16 ((1 / 3 : ℚ) : ℝ) ∧ linVal (0x4000#16 : T .w16) = some 1 ∧ linVal (0x4a00#16 : T .w16) = some 3 ∧
    linDivision .w16 0x4000#16 0x4a00#16 = .ok 0x3555#16 ∧ linVal (0x3555#16 : T .w16) = some (1365 / 4096) := by
  refine ⟨⟨17 / 2 ^ 259, 31 * 2 ^ 250, by decide +kernel, by decide +kernel, ?_, ?_⟩, by decide +kernel, by decide +kernel, by decide +kernel, by decide +kernel⟩
  · rw [abs_of_pos (by push_cast; norm_num)]
    have : (17 : ℝ) / 2 ^ 259 ≤ 17 / 2 ^ 8 := div_le_div_of_nonneg_left (by norm_num) (by norm_num) (pow_le_pow_right₀ (by norm_num) (by norm_num))
    push_cast
    exact this.trans (by norm_num)
  · rw [abs_of_pos (by push_cast; norm_num)]; norm_num

theorem logScale_val {w : W} {t : T w} (rt : Regular t) {z : ℝ} (hz : logVal t = some z) : logScale z = ell t := by
  rw [logVal_regular (by have := w.n_pos; omega) rt, Option.some.injEq] at hz
  unfold logScale
  rw [← hz, abs_mul, abs_of_pos (logG_pos _)]
  have : |((sg t.msb : ℚ) : ℝ)| = 1 := by cases t.msb <;> simp [sg]
  rw [this, one_mul]; exact log_logG _

/-- The same on the logarithmic scale. -/
theorem log_error {w : W} (hw : w ≠ .w8) {v δ : ℝ} (d0 : 0 ≤ δ) {t : T w} (h : FaithfulLog v t) (hn : AlmostNearestLog δ v t) (hr : InRangeLog w v) :
    ∃ z : ℝ, logVal t = some z ∧ 0 < z * v ∧ |Real.log z - Real.log v| ≤ 1 / 2 ^ (w.n - 10) + δ * |Real.log v| := by
  have h1 := bracket_log h hr
  obtain ⟨z, hz, h1⟩ := h1
  obtain ⟨rt, st, hnn⟩ := hn
  have hv : v ≠ 0 := by
    rintro rfl
    obtain ⟨s, m, hs, -, v1, -⟩ := hr
    rw [logVal_regular (by have := w.n_pos; omega) (max_facts w).2.1, Option.some.injEq] at hs
    have := logG_pos (ell (1#w.n : T w))
    rw [abs_zero, ← hs, show (1#w.n : T w).msb = false by cases w <;> decide] at v1
    simp [sg] at v1
    linarith
  have hzv : 0 < z * v := by
    have hz' := hz
    rw [logVal_regular (by have := w.n_pos; omega) rt, Option.some.injEq] at hz'
    have := logG_pos (ell t)
    rw [← hz']
    by_cases hm : t.msb = true
    · have := st.mp hm
      rw [hm]; simp only [sg]; push_cast; nlinarith
    · have h2 := lt_of_le_of_ne (not_lt.mp fun hc => hm (st.mpr hc)) hv.symm
      rw [Bool.not_eq_true] at hm
      rw [hm]; simp only [sg]; push_cast; nlinarith
  refine ⟨z, hz, hzv, ?_⟩
  have hp : (0 : ℝ) < 1 / 2 ^ (w.n - 10) := by positivity
  have hd : 0 ≤ δ * |Real.log v| := mul_nonneg d0 (abs_nonneg _)
  rcases h1 with e | ⟨u, p, q, hu, hu', ru, ru', mu, mu', pq, g1, g2⟩
  · rw [e, sub_self, abs_zero]; linarith
  · obtain ⟨k, hk, lk⟩ := min_precision hw u
    have half : (1 : ℝ) / 2 ^ (k + 2) ≤ 1 / 2 ^ (w.n - 10) :=
      one_div_le_one_div_of_le (by positivity) (pow_le_pow_right₀ (by norm_num) (by cases w <;> first | exact absurd rfl hw | (simp only [W.n] at *; omega)))
    have half2 : (1 : ℝ) / 2 ^ (k + 1) = 2 * (1 / 2 ^ (k + 2)) := by rw [pow_succ 2 (k + 1)]; field_simp
    have key : |Real.log p - Real.log v| ≤ 1 / 2 ^ (k + 2) ∨ |Real.log q - Real.log v| ≤ 1 / 2 ^ (k + 2) := by
      obtain ⟨s1, s2⟩ := precision_spacing_log w u k hk (Or.inl hw) p q hu hu' pq
      have fin : ∀ a b c : ℝ, a < c → c < b → b = a + 2 * (1 / 2 ^ (k + 2)) → |a - c| ≤ 1 / 2 ^ (k + 2) ∨ |b - c| ≤ 1 / 2 ^ (k + 2) := by
        intro a b c h1 h2 h3
        rw [abs_of_neg (by linarith), abs_of_pos (by linarith)]
        by_contra hc
        push Not at hc
        linarith [hc.1, hc.2]
      rcases lt_or_gt_of_ne (fun e => by rw [e, zero_mul] at pq; exact lt_irrefl _ pq : p ≠ 0) with hp0 | hp0
      · have hq0 : q < 0 := by nlinarith
        have hv0 : v < 0 := g2.trans hq0
        rw [← Real.log_neg_eq_log p, ← Real.log_neg_eq_log q, ← Real.log_neg_eq_log v]
        refine (fin _ _ _ (Real.log_lt_log (by linarith) (by linarith)) (Real.log_lt_log (by linarith) (by linarith)) ?_).symm
        have e := s2 hp0
        rw [show -p = -q * Real.exp (1 / 2 ^ (k + 1)) by linarith, Real.log_mul (by linarith) (Real.exp_pos _).ne', Real.log_exp, half2]
      · have hq0 : 0 < q := by nlinarith
        have hv0 : 0 < v := hp0.trans g1
        refine fin _ _ _ (Real.log_lt_log hp0 g1) (Real.log_lt_log hv0 g2) ?_
        rw [s1 hp0, Real.log_mul hp0.ne' (Real.exp_pos _).ne', Real.log_exp, half2]
    have cmp : ∀ (t' : T w) (y : ℝ), Regular t' → t'.msb = t.msb → logVal t' = some y →
        |Real.log z - Real.log v| ≤ |Real.log y - Real.log v| + δ * |Real.log v| := by
      intro t' y r' m' hy
      have := hnn t' r' m'
      rw [← logScale_val rt hz, ← logScale_val r' hy] at this
      unfold logScale at this
      rw [Real.log_abs, Real.log_abs, Real.log_abs, ← mul_sub, ← mul_sub, abs_mul, abs_mul, abs_mul, abs_two] at this
      linarith
    rcases key with g | g
    · have := cmp u p ru mu hu; linarith
    · have := cmp _ q ru' mu' hu'; linarith

theorem nearestLog_almost {w : W} {v : ℝ} {t : T w} (h : NearestLog v t) : AlmostNearestLog 0 v t :=
  ⟨h.1, h.2.1, fun t' rt' mt' => by
    rw [zero_mul, add_zero]
    rcases h.2.2 t' rt' mt' with g | g
    · exact g.le
    · exact g.1.le⟩

/-- What the rounding of the exponent adds to half a unit: nothing for 16 and 32 bits. -/
noncomputable def logSlack : W → ℝ
  | .w64 => 1 / 2 ^ 56
  | _ => 0

theorem inRange_log {w : W} {v : ℝ} (h : InRangeLog w v) : |Real.log v| ≤ 128 := by
  have h5 : 5 ≤ w.n := by have := w.n_pos; omega
  obtain ⟨s, m, hs, hm, v1, v2⟩ := h
  obtain ⟨rM, r1, -⟩ := max_facts w
  have s0 : 0 < s := by
    rw [logVal_regular (by omega) r1, Option.some.injEq, show (1#w.n : T w).msb = false by cases w <;> decide] at hs
    rw [← hs]
    have := logG_pos (ell (1#w.n : T w))
    simp [sg, this]
  have e1 := logScale_val r1 hs
  have e2 := logScale_val rM hm
  unfold logScale at e1 e2
  rw [Real.log_abs] at e1 e2
  have b1 : (-255 : ℝ) ≤ ell (1#w.n : T w) := by
    have : -255 ≤ ell (1#w.n : T w) := by cases w <;> decide +kernel
    exact_mod_cast this
  have b2 : (ell (BitVec.ofNat w.n (2 ^ (w.n - 1) - 1) : T w) : ℝ) ≤ 255 := by
    have : ell (BitVec.ofNat w.n (2 ^ (w.n - 1) - 1) : T w) ≤ 255 := by cases w <;> decide +kernel
    exact_mod_cast this
  rw [← Real.log_abs v]
  have l1 := Real.log_le_log s0 v1
  have l2 := Real.log_le_log (s0.trans_le v1) v2
  rw [abs_le]
  constructor <;> linarith

/-- C112: the product and the quotient of logarithmic takums of 16, 32 or 64 bits that are in the range differ from the exact number
by a factor of at most `exp (2^-6)`, `exp (2^-22)`, `exp (2^-54 + 2^-56)`. -/
theorem log_relative_error (w : W) (hw : w ≠ .w8) (a b : T w) (x y : ℝ) (ha : logVal a = some x) (hb : logVal b = some y) :
    (InRangeLog w (x * y) → ∃ t z, multiplication w a b = .ok t ∧ logVal t = some z ∧ 0 < z / (x * y) ∧
      |Real.log (z / (x * y))| ≤ 1 / 2 ^ (w.n - 10) + logSlack w) ∧
    (InRangeLog w (x / y) → ∃ t z, division w a b = .ok t ∧ logVal t = some z ∧ 0 < z / (x / y) ∧
      |Real.log (z / (x / y))| ≤ 1 / 2 ^ (w.n - 10) + logSlack w) := by
  have h5 : 1 ≤ w.n := by have := w.n_pos; omega
  have ne : ∀ {v : ℝ}, InRangeLog w v → v ≠ 0 := by
    rintro v ⟨s, m, hs, -, v1, -⟩ rfl
    rw [logVal_regular h5 (max_facts w).2.1, Option.some.injEq] at hs
    have := logG_pos (ell (1#w.n : T w))
    rw [abs_zero, ← hs, show (1#w.n : T w).msb = false by cases w <;> decide] at v1
    simp [sg] at v1
    linarith
  have reg : ∀ {c : T w} {u : ℝ}, logVal c = some u → u ≠ 0 → Regular c := by
    rintro c u hc hu
    refine ⟨?_, ?_⟩
    · rintro rfl
      have h0 : (0#w.n : BitVec w.n) ≠ nar w.n := zero_ne_nar w
      exact hu (by simpa [logVal, h0, eq_comm] using hc)
    · rintro rfl; simp [logVal] at hc
  have fin : ∀ {v : ℝ} {r : C (T w)}, (∃ t, r = .ok t ∧ FaithfulLog v t) →
      (∃ t, r = .ok t ∧ AlmostNearestLog (1 / 2 ^ 63) v t ∧ (w ≠ .w64 → NearestLog v t)) →
      InRangeLog w v → ∃ t z, r = .ok t ∧ logVal t = some z ∧ 0 < z / v ∧ |Real.log (z / v)| ≤ 1 / 2 ^ (w.n - 10) + logSlack w := by
    rintro v r ⟨t, e, hf⟩ ⟨t', e', hn, hn'⟩ hr
    obtain rfl : t = t' := Except.ok.inj (e.symm.trans e')
    have hv := ne hr
    have conv : ∀ z : ℝ, 0 < z * v → 0 < z / v ∧ Real.log (z / v) = Real.log z - Real.log v := fun z h =>
      ⟨by rw [div_eq_mul_inv]
          rcases lt_or_gt_of_ne hv with g | g
          · exact mul_pos_of_neg_of_neg (by nlinarith) (inv_lt_zero.mpr g)
          · exact mul_pos (by nlinarith) (inv_pos.mpr g),
        Real.log_div (fun e => by rw [e, zero_mul] at h; exact lt_irrefl _ h) hv⟩
    by_cases h64 : w = .w64
    · obtain ⟨z, hz, h0, hb⟩ := log_error hw (by positivity) hf hn hr
      obtain ⟨c1, c2⟩ := conv z h0
      refine ⟨t, z, e, hz, c1, ?_⟩
      rw [c2]
      have := inRange_log hr
      have : logSlack w = 1 / 2 ^ 56 := by rw [h64]; rfl
      rw [this]
      linarith
    · obtain ⟨z, hz, h0, hb⟩ := log_error hw le_rfl hf (nearestLog_almost (hn' h64)) hr
      obtain ⟨c1, c2⟩ := conv z h0
      refine ⟨t, z, e, hz, c1, ?_⟩
      rw [c2]
      have : logSlack w = 0 := by cases w <;> first | rfl | exact absurd rfl h64
      rw [this]
      linarith
  refine ⟨fun h => ?_, fun h => ?_⟩
  · obtain ⟨hx, hy⟩ := mul_ne_zero_iff.mp (ne h)
    have ra := reg ha hx
    have rb := reg hb hy
    obtain ⟨x1, y1, t1, e1, e2, e3, f⟩ := multiplication_faithful w a b ra rb
    obtain ⟨x2, y2, t2, g1, g2, g3, n⟩ := multiplication_almost_partial w a b ra rb
    rw [ha, Option.some.injEq] at e1 g1
    rw [hb, Option.some.injEq] at e2 g2
    subst e1 e2 g1 g2
    refine fin ⟨t1, e3, f⟩ ⟨t2, g3, n, fun h64 => ?_⟩ h
    obtain ⟨x3, y3, t3, k1, k2, k3, m⟩ := multiplication_nearest_partial w a b ra rb (Or.inl h64)
    rw [ha, Option.some.injEq] at k1
    rw [hb, Option.some.injEq] at k2
    subst k1 k2
    obtain rfl : t2 = t3 := Except.ok.inj (g3.symm.trans k3)
    exact m
  · obtain ⟨hx, hy⟩ := div_ne_zero_iff.mp (ne h)
    have ra := reg ha hx
    have rb := reg hb hy
    obtain ⟨x1, y1, t1, e1, e2, e3, f⟩ := division_faithful w a b ra rb
    obtain ⟨x2, y2, t2, g1, g2, g3, n⟩ := division_almost_partial w a b ra rb
    rw [ha, Option.some.injEq] at e1 g1
    rw [hb, Option.some.injEq] at e2 g2
    subst e1 e2 g1 g2
    refine fin ⟨t1, e3, f⟩ ⟨t2, g3, n, fun h64 => ?_⟩ h
    obtain ⟨x3, y3, t3, k1, k2, k3, m⟩ := division_nearest_partial w a b ra rb (Or.inl h64)
    rw [ha, Option.some.injEq] at k1
    rw [hb, Option.some.injEq] at k2
    subst k1 k2
    obtain rfl : t2 = t3 := Except.ok.inj (g3.symm.trans k3)
    exact m

/-- Not vacuous: `√e * √e^(3/2)` is in the range. -/
example : InRangeLog .w16 (Real.exp (1 / 2) * Real.exp (3 / 4)) ∧ logVal (0x4800#16 : T .w16) = some (Real.exp (1 / 2)) ∧
    logVal (0x4a00#16 : T .w16) = some (Real.exp (3 / 4)) ∧ multiplication .w16 0x4800#16 0x4a00#16 = .ok 0x4e00#16 := by
  have lg : ∀ (t : T .w16) (q : ℚ) (r : ℝ), Regular t → t.msb = false → ell t = q → r = q / 2 → logVal t = some (Real.exp r) := by
    intro t q r rt hm he hr
    rw [logVal_regular (by decide) rt, hm, he, logG_exp, hr]
    simp [sg]
  refine ⟨⟨Real.exp (-(4079 / 32)), Real.exp (4079 / 32), lg _ (-4079 / 16) _ (by unfold Regular; decide) (by decide) (by decide +kernel) (by norm_num),
    lg _ (4079 / 16) _ (by unfold Regular; decide) (by decide) (by decide +kernel) (by norm_num), ?_, ?_⟩,
    lg _ 1 _ (by unfold Regular; decide) (by decide) (by decide +kernel) (by norm_num),
    lg _ (3 / 2) _ (by unfold Regular; decide) (by decide) (by decide +kernel) (by norm_num), by decide +kernel⟩
  · rw [← Real.exp_add, abs_of_pos (Real.exp_pos _)]; exact Real.exp_le_exp.mpr (by norm_num)
  · rw [← Real.exp_add, abs_of_pos (Real.exp_pos _)]; exact Real.exp_le_exp.mpr (by norm_num)

end Takum
