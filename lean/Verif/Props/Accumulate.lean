import Verif.Props.RelError

/-!
# C117: sums and products of any number of operands
-/

namespace Takum
open Spec

/-- The bound of C112 on the relative error of one linear operation. -/
def opEps (w : W) : ℚ := 1 / 2 ^ (w.n - 11) + opSlack w

/-- The bound of C112 on the logarithm of the relative error of one logarithmic multiplication. -/
noncomputable def mulEps (w : W) : ℝ := 1 / 2 ^ (w.n - 10) + logSlack w

theorem opEps_bounds {w : W} (hw : w ≠ .w8) : 0 ≤ opEps w ∧ opEps w < 1 := by
  cases w
  · exact absurd rfl hw
  all_goals decide +kernel

theorem mulEps_nonneg (w : W) : 0 ≤ mulEps w := by
  unfold mulEps logSlack
  cases w <;> norm_num

/-- The range in terms of the values of the two extreme takums. -/
theorem inRangeLin_iff {w : W} {s m v : ℚ} (hs : linVal (1#w.n : T w) = some s)
    (hm : linVal (BitVec.ofNat w.n (2 ^ (w.n - 1) - 1) : T w) = some m) (h1 : s ≤ |v|) (h2 : |v| ≤ m) : InRangeLin w (v : ℝ) :=
  ⟨s, m, hs, hm, by exact_mod_cast h1, by exact_mod_cast h2⟩

/-- Positive linear takums are not below the smallest one. -/
theorem lin_min {w : W} {s x : ℚ} (hs : linVal (1#w.n : T w) = some s) {t : T w} (ht : linVal t = some x) (h0 : 0 < x) : s ≤ x := by
  have h8 := w.n_pos
  obtain ⟨-, r1, -⟩ := max_facts w
  have tn : t ≠ nar w.n := by rintro rfl; simp [linVal] at ht
  rw [linVal_qv tn] at ht
  rw [linVal_qv r1.2] at hs
  have ht := Option.some.inj ht
  rw [← Option.some.inj hs, ← ht, qv_le_iff r1.2 tn]
  have z : ¬ t.toInt ≤ (0#w.n : T w).toInt := fun hc => by
    rw [← qv_le_iff tn (zero_ne_nar w), qv_zero, ht] at hc; linarith
  have e : (1#w.n : T w).toInt = 1 := by cases w <;> decide
  have e0 : (0#w.n : T w).toInt = 0 := by simp
  omega

/-- One step of a sum. -/
theorem sum_step {w : W} (hw : w ≠ .w8) {m : ℚ} (hm : linVal (BitVec.ofNat w.n (2 ^ (w.n - 1) - 1) : T w) = some m) {a b : T w}
    {z y S : ℚ} {k : ℕ} (ha : linVal a = some z) (hb : linVal b = some y) (z0 : 0 < z) (y0 : 0 ≤ y) (_S0 : 0 < S)
    (hz : |z - S| ≤ ((1 + opEps w) ^ k - 1) * S) (hr : (1 + opEps w) ^ k * (S + y) ≤ m) :
    ∃ t z', linAddition w a b = .ok t ∧ linVal t = some z' ∧ 0 < z' ∧ |z' - (S + y)| ≤ ((1 + opEps w) ^ (k + 1) - 1) * (S + y) := by
  obtain ⟨e0, e1⟩ := opEps_bounds hw
  have p1 : 1 ≤ (1 + opEps w) ^ k := one_le_pow₀ (by linarith)
  obtain ⟨s, hs⟩ : ∃ s, linVal (1#w.n : T w) = some s := ⟨_, linVal_qv (max_facts w).2.1.2⟩
  have sz := lin_min hs ha z0
  obtain ⟨z1, z2⟩ := abs_le.mp hz
  have up : z + y ≤ (1 + opEps w) ^ k * (S + y) := by nlinarith
  obtain ⟨t, z', e, hv, he⟩ := (lin_relative_error w hw a b z y ha hb).1
    (inRangeLin_iff hs hm (by rw [abs_of_pos (by linarith)]; linarith) (by rw [abs_of_pos (by linarith)]; linarith))
  rw [show (1 / 2 ^ (w.n - 11) + opSlack w : ℚ) = opEps w from rfl, abs_of_pos (by linarith : 0 < z + y)] at he
  refine ⟨t, z', e, hv, ?_, ?_⟩
  · have := (abs_le.mp he).1; nlinarith
  · have a1 := abs_add_le (z' - (z + y)) (z - S)
    rw [show z' - (z + y) + (z - S) = z' - (S + y) by ring] at a1
    have a2 : opEps w * (z + y) ≤ opEps w * ((1 + opEps w) ^ k * (S + y)) := mul_le_mul_of_nonneg_left up e0
    have a3 : ((1 + opEps w) ^ k - 1) * S ≤ ((1 + opEps w) ^ k - 1) * (S + y) := mul_le_mul_of_nonneg_left (by linarith) (by linarith)
    rw [pow_succ]; linarith

theorem sum_fold {w : W} (hw : w ≠ .w8) {m : ℚ} (hm : linVal (BitVec.ofNat w.n (2 ^ (w.n - 1) - 1) : T w) = some m)
    {ts : List (T w)} {xs : List ℚ} (h : List.Forall₂ (fun t x => linVal t = some x ∧ 0 ≤ x) ts xs) :
    ∀ {a : T w} {z S : ℚ} {k : ℕ}, linVal a = some z → 0 < z → 0 < S → |z - S| ≤ ((1 + opEps w) ^ k - 1) * S →
      (1 + opEps w) ^ (k + ts.length) * (S + xs.sum) ≤ m →
      ∃ t z', ts.foldlM (linAddition w) a = .ok t ∧ linVal t = some z' ∧ 0 < z' ∧
        |z' - (S + xs.sum)| ≤ ((1 + opEps w) ^ (k + ts.length) - 1) * (S + xs.sum) := by
  obtain ⟨e0, e1⟩ := opEps_bounds hw
  induction h with
  | nil =>
    intro a z S k ha z0 S0 hz hr
    exact ⟨a, z, rfl, ha, z0, by simpa using hz⟩
  | @cons b y ts xs hb hrest ih =>
    intro a z S k ha z0 S0 hz hr
    have s0 : 0 ≤ xs.sum := by
      clear ih hr
      induction hrest with
      | nil => simp
      | cons h _ ih => rw [List.sum_cons]; linarith [h.2]
    have hle : (1 + opEps w) ^ k ≤ (1 + opEps w) ^ (k + (b :: ts).length) := pow_le_pow_right₀ (by linarith) (by omega)
    have p1 : 1 ≤ (1 + opEps w) ^ k := one_le_pow₀ (by linarith)
    rw [List.sum_cons] at hr ⊢
    obtain ⟨t, z', e, hv, z0', he⟩ := sum_step hw hm ha hb.1 z0 hb.2 S0 hz (le_trans (by
      have := hb.2
      calc (1 + opEps w) ^ k * (S + y) ≤ (1 + opEps w) ^ k * (S + (y + xs.sum)) := mul_le_mul_of_nonneg_left (by linarith) (by linarith)
        _ ≤ _ := mul_le_mul_of_nonneg_right hle (by linarith)) hr)
    rw [List.length_cons, show k + (ts.length + 1) = k + 1 + ts.length by ring, ← add_assoc] at hr ⊢
    obtain ⟨t', z'', e', hv', z0'', he'⟩ := ih hv z0' (by linarith [hb.2]) he hr
    refine ⟨t', z'', ?_, hv', z0'', he'⟩
    rw [List.foldlM_cons, e]; exact e'

/-- C117: adding up non-negative linear takums of 16, 32 or 64 bits one after the other. -/
theorem lin_sum_many (w : W) (hw : w ≠ .w8) (m : ℚ) (hm : linVal (BitVec.ofNat w.n (2 ^ (w.n - 1) - 1) : T w) = some m)
    (a : T w) (x : ℚ) (ts : List (T w)) (xs : List ℚ) (ha : linVal a = some x) (hx : 0 < x)
    (h : List.Forall₂ (fun t x => linVal t = some x ∧ 0 ≤ x) ts xs)
    (hr : (1 + opEps w) ^ ts.length * (x + xs.sum) ≤ m) :
    ∃ t z, ts.foldlM (linAddition w) a = .ok t ∧ linVal t = some z ∧
      |z - (x + xs.sum)| ≤ ((1 + opEps w) ^ ts.length - 1) * (x + xs.sum) := by
  obtain ⟨t, z, e, hv, -, he⟩ := sum_fold hw hm h (k := 0) (S := x) ha hx hx (by simp) (by rw [zero_add]; exact hr)
  rw [zero_add] at he
  exact ⟨t, z, e, hv, he⟩

/-- 1000 + 3 + 7 + 5 with linear takums of 16 bits: the sum 1015 comes out as 1016. -/
example : linVal (BitVec.ofNat 16 (2 ^ 15 - 1) : T .w16) = some (31 * 2 ^ 250) ∧ linVal (23284#16 : T .w16) = some 1000 ∧
    List.Forall₂ (fun t x => linVal t = some x ∧ 0 ≤ x) ([0x4a00#16, 20224#16, 0x4d00#16] : List (T .w16)) [3, 7, 5] ∧
    (1 + opEps .w16) ^ 3 * (1000 + ([3, 7, 5] : List ℚ).sum) ≤ 31 * 2 ^ 250 ∧
    ([0x4a00#16, 20224#16, 0x4d00#16] : List (T .w16)).foldlM (linAddition .w16) 23284#16 = .ok 23292#16 ∧
    linVal (23292#16 : T .w16) = some 1016 := by
  refine ⟨by decide +kernel, by decide +kernel, ?_, by decide +kernel, by decide +kernel, by decide +kernel⟩
  exact .cons ⟨by decide +kernel, by norm_num⟩ (.cons ⟨by decide +kernel, by norm_num⟩ (.cons ⟨by decide +kernel, by norm_num⟩ .nil))

/-- One step of a linear product. -/
theorem prod_step {w : W} (hw : w ≠ .w8) {s m : ℚ} (hs : linVal (1#w.n : T w) = some s)
    (hm : linVal (BitVec.ofNat w.n (2 ^ (w.n - 1) - 1) : T w) = some m) {a b : T w}
    {z y P : ℚ} {k N : ℕ} (ha : linVal a = some z) (hb : linVal b = some y) (hk : k ≤ N)
    (hz : ∃ θ, z = P * θ ∧ (1 - opEps w) ^ k ≤ θ ∧ θ ≤ (1 + opEps w) ^ k)
    (h1 : s ≤ (1 - opEps w) ^ N * |P * y|) (h2 : (1 + opEps w) ^ N * |P * y| ≤ m) :
    ∃ t z', linMultiplication w a b = .ok t ∧ linVal t = some z' ∧
      ∃ θ, z' = P * y * θ ∧ (1 - opEps w) ^ (k + 1) ≤ θ ∧ θ ≤ (1 + opEps w) ^ (k + 1) := by
  obtain ⟨e0, e1⟩ := opEps_bounds hw
  obtain ⟨θ, rfl, t1, t2⟩ := hz
  have q0 : 0 < (1 - opEps w) ^ k := pow_pos (by linarith) _
  have θ0 : 0 < θ := lt_of_lt_of_le q0 t1
  have ab : |P * θ * y| = θ * |P * y| := by rw [show P * θ * y = θ * (P * y) by ring, abs_mul, abs_of_pos θ0]
  have d1 : (1 - opEps w) ^ N ≤ (1 - opEps w) ^ k := pow_le_pow_of_le_one (by linarith) (by linarith) hk
  have d2 : (1 + opEps w) ^ k ≤ (1 + opEps w) ^ N := pow_le_pow_right₀ (by linarith) hk
  have n0 := abs_nonneg (P * y)
  obtain ⟨t, z', e, hv, he⟩ := (lin_relative_error w hw a b _ y ha hb).2.2.1
    (inRangeLin_iff hs hm (by rw [ab]; exact h1.trans (mul_le_mul_of_nonneg_right (d1.trans t1) n0))
      (by rw [ab]; exact (mul_le_mul_of_nonneg_right (t2.trans d2) n0).trans h2))
  rw [show (1 / 2 ^ (w.n - 11) + opSlack w : ℚ) = opEps w from rfl, ab] at he
  have Py0 : P * y ≠ 0 := by
    intro h0
    have s0 : 0 < s := by
      have := Option.some.inj ((linVal_qv (max_facts w).2.1.2).symm.trans hs)
      rw [← this]
      have hlt : ¬ qv (1#w.n : T w) ≤ qv (0#w.n : T w) := by
        rw [qv_le_iff (max_facts w).2.1.2 (zero_ne_nar w)]
        cases w <;> decide
      rw [qv_zero] at hlt; linarith
    rw [h0] at h1; simp at h1; linarith
  refine ⟨t, z', e, hv, z' / (P * y), (mul_div_cancel₀ z' Py0).symm, ?_⟩
  have pa : 0 < |P * y| := abs_pos.mpr Py0
  have hd : |z' / (P * y) - θ| ≤ opEps w * θ := by
    rw [show z' / (P * y) - θ = (z' - P * θ * y) / (P * y) by
      rw [sub_div, show P * θ * y = θ * (P * y) by ring, mul_div_cancel_right₀ _ Py0], abs_div, div_le_iff₀ pa]
    linarith
  obtain ⟨l, u⟩ := abs_le.mp hd
  constructor
  · have : (1 - opEps w) ^ k * (1 - opEps w) ≤ θ * (1 - opEps w) := mul_le_mul_of_nonneg_right t1 (by linarith)
    rw [pow_succ]; linarith
  · have : θ * (1 + opEps w) ≤ (1 + opEps w) ^ k * (1 + opEps w) := mul_le_mul_of_nonneg_right t2 (by linarith)
    rw [pow_succ]; linarith

theorem prod_fold {w : W} (hw : w ≠ .w8) {s m : ℚ} (hs : linVal (1#w.n : T w) = some s)
    (hm : linVal (BitVec.ofNat w.n (2 ^ (w.n - 1) - 1) : T w) = some m) {N : ℕ}
    {ts : List (T w)} {xs : List ℚ} (h : List.Forall₂ (fun t x => linVal t = some x) ts xs) :
    ∀ {a : T w} {z P : ℚ} {k : ℕ}, linVal a = some z → k + ts.length ≤ N →
      (∃ θ, z = P * θ ∧ (1 - opEps w) ^ k ≤ θ ∧ θ ≤ (1 + opEps w) ^ k) →
      (∀ i, 1 ≤ i → i ≤ xs.length → s ≤ (1 - opEps w) ^ N * |P * (xs.take i).prod| ∧ (1 + opEps w) ^ N * |P * (xs.take i).prod| ≤ m) →
      ∃ t z', ts.foldlM (linMultiplication w) a = .ok t ∧ linVal t = some z' ∧
        ∃ θ, z' = P * xs.prod * θ ∧ (1 - opEps w) ^ (k + ts.length) ≤ θ ∧ θ ≤ (1 + opEps w) ^ (k + ts.length) := by
  induction h with
  | nil =>
    intro a z P k ha hk hz hr
    exact ⟨a, z, rfl, ha, by simpa using hz⟩
  | @cons b y ts xs hb hrest ih =>
    intro a z P k ha hk hz hr
    rw [List.length_cons] at hk
    have r1 := hr 1 le_rfl (by simp)
    simp only [List.take_succ_cons, List.take_zero, List.prod_cons, List.prod_nil, mul_one] at r1
    obtain ⟨t, z', e, hv, he⟩ := prod_step hw hs hm (N := N) ha hb (by omega) hz r1.1 r1.2
    obtain ⟨t', z'', e', hv', he'⟩ := ih (P := P * y) hv (k := k + 1) (by omega) he (by
      intro i i1 i2
      have := hr (i + 1) (by omega) (by simpa using i2)
      rwa [List.take_succ_cons, List.prod_cons, ← mul_assoc] at this)
    rw [List.length_cons, show k + (ts.length + 1) = k + 1 + ts.length by ring, List.prod_cons, ← mul_assoc]
    refine ⟨t', z'', ?_, hv', he'⟩
    rw [List.foldlM_cons, e]; exact e'

/-- C117: multiplying linear takums of 16, 32 or 64 bits one after the other. -/
theorem lin_prod_many (w : W) (hw : w ≠ .w8) (s m : ℚ) (hs : linVal (1#w.n : T w) = some s)
    (hm : linVal (BitVec.ofNat w.n (2 ^ (w.n - 1) - 1) : T w) = some m)
    (a : T w) (x : ℚ) (ts : List (T w)) (xs : List ℚ) (ha : linVal a = some x)
    (h : List.Forall₂ (fun t x => linVal t = some x) ts xs)
    (hr : ∀ i, 1 ≤ i → i ≤ xs.length → s ≤ (1 - opEps w) ^ ts.length * |x * (xs.take i).prod| ∧
      (1 + opEps w) ^ ts.length * |x * (xs.take i).prod| ≤ m) :
    ∃ t z θ, ts.foldlM (linMultiplication w) a = .ok t ∧ linVal t = some z ∧ z = x * xs.prod * θ ∧
      (1 - opEps w) ^ ts.length ≤ θ ∧ θ ≤ (1 + opEps w) ^ ts.length := by
  obtain ⟨t, z, e, hv, θ, he⟩ := prod_fold hw hs hm (N := ts.length) h (P := x) (k := 0) ha (by omega) ⟨1, by simp⟩ hr
  rw [zero_add] at he
  exact ⟨t, z, θ, e, hv, he⟩

/-- 1000 * 3 * 7 * 5 with linear takums of 16 bits: the product 105000 comes out as 104960. -/
example : linVal (1#16 : T .w16) = some (17 / 2 ^ 259) ∧ linVal (BitVec.ofNat 16 (2 ^ 15 - 1) : T .w16) = some (31 * 2 ^ 250) ∧
    linVal (23284#16 : T .w16) = some 1000 ∧
    List.Forall₂ (fun t x => linVal t = some x) ([0x4a00#16, 20224#16, 0x4d00#16] : List (T .w16)) [3, 7, 5] ∧
    (∀ i, 1 ≤ i → i ≤ 3 → (17 / 2 ^ 259 : ℚ) ≤ (1 - opEps .w16) ^ 3 * |1000 * (([3, 7, 5] : List ℚ).take i).prod| ∧
      (1 + opEps .w16) ^ 3 * |1000 * (([3, 7, 5] : List ℚ).take i).prod| ≤ 31 * 2 ^ 250) ∧
    ([0x4a00#16, 20224#16, 0x4d00#16] : List (T .w16)).foldlM (linMultiplication .w16) 23284#16 = .ok 24781#16 ∧
    linVal (24781#16 : T .w16) = some 104960 := by
  refine ⟨by decide +kernel, by decide +kernel, by decide +kernel, ?_, ?_, by decide +kernel, by decide +kernel⟩
  · exact .cons (by decide +kernel) (.cons (by decide +kernel) (.cons (by decide +kernel) .nil))
  · intro i i1 i2
    interval_cases i <;> decide +kernel

/-- One step of a logarithmic product. -/
theorem logprod_step {w : W} (hw : w ≠ .w8) {s m : ℝ} (hs : logVal (1#w.n : T w) = some s)
    (hm : logVal (BitVec.ofNat w.n (2 ^ (w.n - 1) - 1) : T w) = some m) {a b : T w}
    {z y P : ℝ} {k N : ℕ} (ha : logVal a = some z) (hb : logVal b = some y) (hk : k ≤ N)
    (hz : ∃ r, z = P * Real.exp r ∧ |r| ≤ k * mulEps w)
    (h1 : s * Real.exp (N * mulEps w) ≤ |P * y|) (h2 : |P * y| * Real.exp (N * mulEps w) ≤ m) :
    ∃ t z', multiplication w a b = .ok t ∧ logVal t = some z' ∧
      ∃ r, z' = P * y * Real.exp r ∧ |r| ≤ ((k + 1 : ℕ) : ℝ) * mulEps w := by
  obtain ⟨r, rfl, hr⟩ := hz
  have e0 := mulEps_nonneg w
  have kN : (k : ℝ) * mulEps w ≤ N * mulEps w := mul_le_mul_of_nonneg_right (by exact_mod_cast hk) e0
  obtain ⟨r1, r2⟩ := abs_le.mp (hr.trans kN)
  have ab : |P * Real.exp r * y| = |P * y| * Real.exp r := by
    rw [show P * Real.exp r * y = P * y * Real.exp r by ring, abs_mul, abs_of_pos (Real.exp_pos r)]
  have n0 := abs_nonneg (P * y)
  obtain ⟨t, z', e, hv, p0, he⟩ := (log_relative_error w hw a b _ y ha hb).1 ⟨s, m, hs, hm, by
      rw [ab]
      have := mul_le_mul_of_nonneg_right h1 (Real.exp_pos (-(N * mulEps w))).le
      rw [mul_assoc, ← Real.exp_add, add_neg_cancel, Real.exp_zero, mul_one] at this
      exact this.trans (mul_le_mul_of_nonneg_left (Real.exp_le_exp.mpr r1) n0), by
      rw [ab]
      exact (mul_le_mul_of_nonneg_left (Real.exp_le_exp.mpr r2) n0).trans h2⟩
  rw [show (1 / 2 ^ (w.n - 10) + logSlack w : ℝ) = mulEps w from rfl] at he
  refine ⟨t, z', e, hv, r + Real.log (z' / (P * Real.exp r * y)), ?_, ?_⟩
  · have ne : P * Real.exp r * y ≠ 0 := by intro h0; rw [h0, div_zero] at p0; exact lt_irrefl _ p0
    rw [Real.exp_add, Real.exp_log p0, ← mul_assoc, show P * y * Real.exp r = P * Real.exp r * y by ring, mul_div_cancel₀ _ ne]
  · push_cast
    have := abs_add_le r (Real.log (z' / (P * Real.exp r * y)))
    linarith

theorem logprod_fold {w : W} (hw : w ≠ .w8) {s m : ℝ} (hs : logVal (1#w.n : T w) = some s)
    (hm : logVal (BitVec.ofNat w.n (2 ^ (w.n - 1) - 1) : T w) = some m) {N : ℕ}
    {ts : List (T w)} {xs : List ℝ} (h : List.Forall₂ (fun t x => logVal t = some x) ts xs) :
    ∀ {a : T w} {z P : ℝ} {k : ℕ}, logVal a = some z → k + ts.length ≤ N →
      (∃ r, z = P * Real.exp r ∧ |r| ≤ k * mulEps w) →
      (∀ i, 1 ≤ i → i ≤ xs.length → s * Real.exp (N * mulEps w) ≤ |P * (xs.take i).prod| ∧ |P * (xs.take i).prod| * Real.exp (N * mulEps w) ≤ m) →
      ∃ t z', ts.foldlM (multiplication w) a = .ok t ∧ logVal t = some z' ∧
        ∃ r, z' = P * xs.prod * Real.exp r ∧ |r| ≤ ((k + ts.length : ℕ) : ℝ) * mulEps w := by
  induction h with
  | nil =>
    intro a z P k ha hk hz hr
    exact ⟨a, z, rfl, ha, by simpa using hz⟩
  | @cons b y ts xs hb hrest ih =>
    intro a z P k ha hk hz hr
    rw [List.length_cons] at hk
    have r1 := hr 1 le_rfl (by simp)
    simp only [List.take_succ_cons, List.take_zero, List.prod_cons, List.prod_nil, mul_one] at r1
    obtain ⟨t, z', e, hv, he⟩ := logprod_step hw hs hm (N := N) ha hb (by omega) hz r1.1 r1.2
    obtain ⟨t', z'', e', hv', he'⟩ := ih (P := P * y) hv (k := k + 1) (by omega) he (by
      intro i i1 i2
      have := hr (i + 1) (by omega) (by simpa using i2)
      rwa [List.take_succ_cons, List.prod_cons, ← mul_assoc] at this)
    rw [List.length_cons, show k + (ts.length + 1) = k + 1 + ts.length by ring, List.prod_cons, ← mul_assoc]
    refine ⟨t', z'', ?_, hv', he'⟩
    rw [List.foldlM_cons, e]; exact e'

/-- C117: multiplying logarithmic takums of 16, 32 or 64 bits one after the other. -/
theorem log_prod_many (w : W) (hw : w ≠ .w8) (s m : ℝ) (hs : logVal (1#w.n : T w) = some s)
    (hm : logVal (BitVec.ofNat w.n (2 ^ (w.n - 1) - 1) : T w) = some m)
    (a : T w) (x : ℝ) (ts : List (T w)) (xs : List ℝ) (ha : logVal a = some x)
    (h : List.Forall₂ (fun t x => logVal t = some x) ts xs)
    (hr : ∀ i, 1 ≤ i → i ≤ xs.length → s * Real.exp (ts.length * mulEps w) ≤ |x * (xs.take i).prod| ∧
      |x * (xs.take i).prod| * Real.exp (ts.length * mulEps w) ≤ m) :
    ∃ t z r, ts.foldlM (multiplication w) a = .ok t ∧ logVal t = some z ∧ z = x * xs.prod * Real.exp r ∧
      |r| ≤ ts.length * mulEps w := by
  obtain ⟨t, z, e, hv, r, he⟩ := logprod_fold hw hs hm (N := ts.length) h (P := x) (k := 0) ha (by omega) ⟨0, by simp⟩ hr
  rw [zero_add] at he
  exact ⟨t, z, r, e, hv, he⟩

/-- A product of three logarithmic takums of 16 bits, the second step of which is rounded. -/
example : logVal (1#16 : T .w16) = some (Real.exp (-(4079 / 32))) ∧
    logVal (BitVec.ofNat 16 (2 ^ 15 - 1) : T .w16) = some (Real.exp (4079 / 32)) ∧ logVal (0x4800#16 : T .w16) = some (Real.exp (1 / 2)) ∧
    List.Forall₂ (fun t x => logVal t = some x) ([0x5a61#16, 0x5a60#16] : List (T .w16)) [Real.exp (2401 / 512), Real.exp (75 / 16)] ∧
    (∀ i, 1 ≤ i → i ≤ 2 → Real.exp (-(4079 / 32)) * Real.exp ((2 : ℕ) * mulEps .w16) ≤
        |Real.exp (1 / 2) * (([Real.exp (2401 / 512), Real.exp (75 / 16)] : List ℝ).take i).prod| ∧
      |Real.exp (1 / 2) * (([Real.exp (2401 / 512), Real.exp (75 / 16)] : List ℝ).take i).prod| * Real.exp ((2 : ℕ) * mulEps .w16) ≤ Real.exp (4079 / 32)) ∧
    ([0x5a61#16, 0x5a60#16] : List (T .w16)).foldlM (multiplication .w16) 0x4800#16 = .ok 25184#16 := by
  have lg : ∀ (t : T .w16) (q : ℚ) (r : ℝ), Regular t → t.msb = false → ell t = q → r = q / 2 → logVal t = some (Real.exp r) := by
    intro t q r rt hm he hr
    rw [logVal_regular (by decide) rt, hm, he, logG_exp, hr]
    simp [sg]
  refine ⟨lg _ (-4079 / 16) _ (by unfold Regular; decide) (by decide) (by decide +kernel) (by norm_num),
    lg _ (4079 / 16) _ (by unfold Regular; decide) (by decide) (by decide +kernel) (by norm_num),
    lg _ 1 _ (by unfold Regular; decide) (by decide) (by decide +kernel) (by norm_num),
    .cons (lg _ (2401 / 256) _ (by unfold Regular; decide) (by decide) (by decide +kernel) (by norm_num))
      (.cons (lg _ (75 / 8) _ (by unfold Regular; decide) (by decide) (by decide +kernel) (by norm_num)) .nil), ?_, by decide +kernel⟩
  intro i i1 i2
  have hm : mulEps .w16 = 1 / 2 ^ 6 := by simp [mulEps, logSlack, W.n]
  rw [hm]
  interval_cases i <;> simp only [List.take_succ_cons, List.take_zero, List.prod_cons, List.prod_nil, mul_one, ← Real.exp_add, abs_of_pos (Real.exp_pos _)] <;>
    exact ⟨Real.exp_le_exp.mpr (by norm_num), Real.exp_le_exp.mpr (by norm_num)⟩

end Takum
