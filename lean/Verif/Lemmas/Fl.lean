import Verif.Fl

/-!
# Lemmas on the float operations
-/

namespace Takum

namespace Fmt

theorem Rep.zpow {F : Fmt} (hp : 1 ≤ F.prec) {k : ℤ} (h : F.emin ≤ k) : F.Rep ((2 : ℚ) ^ k) :=
  ⟨1, k, by simp, by
    have : (1 : ℤ) < 2 ^ F.prec := one_lt_pow₀ (by norm_num) (by omega)
    simpa using this, h⟩

theorem Rep.int {F : Fmt} (he : F.emin ≤ 0) {k : ℤ} (h : |k| < 2 ^ F.prec) : F.Rep (k : ℚ) :=
  ⟨k, 0, by simp, h, he⟩

theorem Rep.abs {F : Fmt} {q : ℚ} (h : F.Rep q) : F.Rep |q| := by
  rcases abs_choice q with h' | h' <;> rw [h']
  · exact h
  · exact h.neg

/-- Multiplication by a power of two that does not underflow. -/
theorem Rep.scale {F : Fmt} {q : ℚ} (h : F.Rep q) (k : ℤ) (hk : 0 ≤ k) : F.Rep (q * (2 : ℚ) ^ k) := by
  obtain ⟨m, e, h1, h2, h3⟩ := h
  exact ⟨m, e + k, by rw [h1, zpow_add₀ (by norm_num)]; ring, h2, by omega⟩

theorem rq_rep (F : Fmt) (hp : 1 ≤ F.prec) (q : ℚ) : F.Rep (F.rq q) := by
  by_cases hq : q = 0
  · subst hq; simpa using Rep.zero F
  unfold rq
  set j := F.qexp q with hj
  have hje : F.emin ≤ j := le_max_right _ _
  have hq2 : |q| < (2 : ℚ) ^ (j + F.prec) := by
    calc |q| < ((2 : ℕ) : ℚ) ^ (Int.log 2 |q| + 1) := Int.lt_zpow_succ_log_self (by norm_num) _
      _ = (2 : ℚ) ^ (Int.log 2 |q| + 1) := by norm_num
      _ ≤ (2 : ℚ) ^ (j + F.prec) := by
        apply zpow_le_zpow_right₀ (by norm_num)
        have : Int.log 2 |q| - (F.prec - 1) ≤ j := le_max_left _ _
        omega
  have hpos : (0 : ℚ) < (2 : ℚ) ^ j := zpow_pos (by norm_num) _
  have hb : |rne (q / (2 : ℚ) ^ j)| ≤ 2 ^ F.prec := by
    have h1 : |q / (2 : ℚ) ^ j| ≤ ((2 ^ F.prec : ℤ) : ℚ) := by
      rw [abs_div, abs_of_pos hpos, div_le_iff₀ hpos]
      push_cast
      rw [zpow_add₀ (by norm_num), mul_comm] at hq2
      exact_mod_cast hq2.le
    rw [abs_le] at h1 ⊢
    constructor
    · apply le_rne_of_le; push_cast at h1 ⊢; exact h1.1
    · exact rne_le_of_le h1.2
  rcases lt_or_eq_of_le hb with h | h
  · exact ⟨_, j, rfl, h, hje⟩
  · -- the result is ± 2^(j+prec)
    have key : F.Rep ((2 : ℚ) ^ (j + F.prec)) := Rep.zpow hp (by omega)
    have e1 : ((2 ^ F.prec : ℤ) : ℚ) * (2 : ℚ) ^ j = (2 : ℚ) ^ (j + F.prec) := by
      rw [zpow_add₀ (by norm_num)]; push_cast; rw [mul_comm]; norm_cast
    rcases (abs_eq (by positivity)).mp h with h | h
    · rw [h, e1]; exact key
    · rw [h]; push_cast; rw [neg_mul]; apply Rep.neg
      have := e1; push_cast at this; rw [this]; exact key

theorem abs_rq (F : Fmt) (q : ℚ) : F.rq |q| = |F.rq q| := by
  rcases le_total 0 q with h | h
  · rw [abs_of_nonneg h, abs_of_nonneg (F.rq_nonneg h)]
  · have h1 : 0 ≤ F.rq (-q) := F.rq_nonneg (by linarith)
    rw [abs_of_nonpos h, rq_neg]
    rw [rq_neg] at h1
    rw [abs_of_nonpos (by linarith)]

theorem rq_le (F : Fmt) (hp : 1 ≤ F.prec) {q b : ℚ} (hb : F.Rep b) (h : q ≤ b) : F.rq q ≤ b := by
  have := F.rq_mono hp h
  rwa [F.rq_of_rep hb] at this

theorem le_rq (F : Fmt) (hp : 1 ≤ F.prec) {q b : ℚ} (hb : F.Rep b) (h : b ≤ q) : b ≤ F.rq q := by
  have := F.rq_mono hp h
  rwa [F.rq_of_rep hb] at this

theorem abs_rq_le (F : Fmt) (hp : 1 ≤ F.prec) {q b : ℚ} (hb : F.Rep b) (h : |q| ≤ b) :
    |F.rq q| ≤ b := by
  rw [← abs_rq]; exact F.rq_le hp hb h

theorem rq_pos (F : Fmt) (hp : 1 ≤ F.prec) {q : ℚ} (h : (2 : ℚ) ^ F.emin ≤ q) : 0 < F.rq q :=
  lt_of_lt_of_le (zpow_pos (by norm_num) _) (F.le_rq hp (Rep.zpow hp (le_refl _)) h)

/-- A rounding does not depend on which of two overlapping formats represents the result. -/
theorem Rep.mono {F G : Fmt} (hp : F.prec ≤ G.prec) (he : G.emin ≤ F.emin) {q : ℚ} (h : F.Rep q) :
    G.Rep q := by
  obtain ⟨m, e, h1, h2, h3⟩ := h
  refine ⟨m, e, h1, lt_of_lt_of_le h2 (pow_le_pow_right₀ (by norm_num) hp), he.trans h3⟩

theorem In.mono {F G : Fmt} (hp : F.prec ≤ G.prec) (he : G.emin ≤ F.emin) (hx : F.emax ≤ G.emax)
    {q : ℚ} (h : F.In q) : G.In q :=
  ⟨h.1.mono hp he, lt_of_lt_of_le h.2 (zpow_le_zpow_right₀ (by norm_num) hx)⟩

theorem b32_b64 {q : ℚ} (h : b32.In q) : b64.In q := h.mono (by decide) (by decide) (by decide)
theorem b32_x80 {q : ℚ} (h : b32.In q) : x80.In q := h.mono (by decide) (by decide) (by decide)
theorem b64_x80 {q : ℚ} (h : b64.In q) : x80.In q := h.mono (by decide) (by decide) (by decide)

end Fmt

namespace Fl

/-- `x` is a finite float with value `q`. -/
def Is (x : Fl) (q : ℚ) : Prop := ∃ z, x = mk z q

theorem Is.mk (z : Bool) (q : ℚ) : Is (Fl.mk z q) q := ⟨z, rfl⟩

theorem Is.num {q : ℚ} (h : q ≠ 0) : Is (Fl.num q) q := ⟨false, by simp [Fl.mk, h]⟩

theorem Is.zero (s : Bool) : Is (Fl.zero s) 0 := ⟨s, by simp [Fl.mk]⟩

theorem Is.cases {x : Fl} {q : ℚ} (h : Is x q) :
    (q ≠ 0 ∧ x = Fl.num q) ∨ (q = 0 ∧ ∃ s, x = Fl.zero s) := by
  obtain ⟨z, h⟩ := h
  unfold Fl.mk at h
  split at h
  · right; exact ⟨‹_›, z, h⟩
  · left; exact ⟨‹_›, h⟩

theorem Is.eq_num {x : Fl} {q : ℚ} (h : Is x q) (hq : q ≠ 0) : x = Fl.num q := by
  rcases h.cases with ⟨_, h⟩ | ⟨h, _⟩
  · exact h
  · exact absurd h hq

@[simp] theorem Is.toQ {x : Fl} {q : ℚ} (h : Is x q) : x.toQ = q := by
  rcases h.cases with ⟨_, h⟩ | ⟨h0, s, h⟩
  · rw [h]; rfl
  · rw [h, h0]; rfl

theorem Is.unique {x : Fl} {p q : ℚ} (h : Is x p) (h' : Is x q) : p = q := by
  rw [← h.toQ, ← h'.toQ]

theorem Is.isnan {x : Fl} {q : ℚ} (h : Is x q) : x.isnan = false := by
  rcases h.cases with ⟨_, h⟩ | ⟨_, s, h⟩ <;> rw [h] <;> rfl

theorem Is.isinf {x : Fl} {q : ℚ} (h : Is x q) : x.isinf = false := by
  rcases h.cases with ⟨_, h⟩ | ⟨_, s, h⟩ <;> rw [h] <;> rfl

theorem Is.isfinite {x : Fl} {q : ℚ} (h : Is x q) : x.isfinite = true := by
  rcases h.cases with ⟨_, h⟩ | ⟨_, s, h⟩ <;> rw [h] <;> rfl

theorem Is.round {F : Fmt} (z : Bool) {q : ℚ} (h : |F.rq q| < (2 : ℚ) ^ F.emax) :
    Is (Fl.round F z q) (F.rq q) := by
  unfold Fl.round
  split
  · rename_i h0; subst h0; simpa using Is.zero z
  · rw [if_neg (not_le.mpr h)]; exact Is.mk _ _

/-- Rounding of a finite nonzero result keeps the sign in the result. -/
theorem round_sgn {F : Fmt} {z : Bool} {q : ℚ} (hq : q ≠ 0) : (Fl.round F z q).sgn = decide (q < 0) := by
  unfold Fl.round
  rw [if_neg hq]
  split
  · rfl
  · unfold Fl.mk
    split
    · rfl
    · rename_i h1 h0
      unfold sgn
      simp only
      rcases lt_or_gt_of_ne hq with h | h
      · have : 0 ≤ F.rq (-q) := F.rq_nonneg (by linarith)
        rw [F.rq_neg] at this
        have : F.rq q < 0 := lt_of_le_of_ne (by linarith) h0
        simp [h, this]
      · have : 0 ≤ F.rq q := F.rq_nonneg h.le
        simp [not_lt.mpr h.le, not_lt.mpr this]

theorem round_of_in {F : Fmt} {z : Bool} {q : ℚ} (h : F.In q) : Fl.round F z q = Fl.mk z q := by
  have e := F.rq_of_rep h.1
  unfold Fl.round Fl.mk
  split
  · rfl
  · rw [e, if_neg (not_le.mpr h.2), if_neg ‹_›]

theorem Is.neg {x : Fl} {q : ℚ} (h : Is x q) : Is x.neg (-q) := by
  rcases h.cases with ⟨h0, h⟩ | ⟨h0, s, h⟩
  · rw [h]; exact Is.num (neg_ne_zero.mpr h0)
  · rw [h, h0, neg_zero]; exact Is.zero _

theorem Is.abs {x : Fl} {q : ℚ} (h : Is x q) : Is x.abs |q| := by
  rcases h.cases with ⟨h0, h⟩ | ⟨h0, s, h⟩
  · rw [h]; exact Is.num (abs_ne_zero.mpr h0)
  · rw [h, h0, abs_zero]; exact Is.zero _

theorem add_eq {F : Fmt} {x y : Fl} {a b : ℚ} (hx : Is x a) (hy : Is y b) :
    Fl.add F x y = Fl.round F (x.sgn && y.sgn) (a + b) := by
  rcases hx.cases with ⟨_, h⟩ | ⟨h0, s, h⟩ <;> rcases hy.cases with ⟨_, h'⟩ | ⟨h0', s', h'⟩ <;>
    subst h h' <;> simp_all [Fl.add, Fl.toQ, Fl.sgn]

theorem Is.add {F : Fmt} {x y : Fl} {a b : ℚ} (hx : Is x a) (hy : Is y b)
    (h : |F.rq (a + b)| < (2 : ℚ) ^ F.emax) : Is (Fl.add F x y) (F.rq (a + b)) := by
  rw [add_eq hx hy]; exact Is.round _ h

theorem Is.sub {F : Fmt} {x y : Fl} {a b : ℚ} (hx : Is x a) (hy : Is y b)
    (h : |F.rq (a - b)| < (2 : ℚ) ^ F.emax) : Is (Fl.sub F x y) (F.rq (a - b)) := by
  unfold Fl.sub; rw [sub_eq_add_neg] at h ⊢; exact hx.add hy.neg h

theorem mul_eq {F : Fmt} {x y : Fl} {a b : ℚ} (hx : Is x a) (hy : Is y b) :
    Fl.mul F x y = Fl.round F (xor x.sgn y.sgn) (a * b) := by
  rcases hx.cases with ⟨_, h⟩ | ⟨h0, s, h⟩ <;> rcases hy.cases with ⟨_, h'⟩ | ⟨h0', s', h'⟩ <;>
    subst h h' <;> simp_all [Fl.mul, Fl.toQ, Fl.sgn]

theorem Is.mul {F : Fmt} {x y : Fl} {a b : ℚ} (hx : Is x a) (hy : Is y b)
    (h : |F.rq (a * b)| < (2 : ℚ) ^ F.emax) : Is (Fl.mul F x y) (F.rq (a * b)) := by
  rw [mul_eq hx hy]; exact Is.round _ h

theorem div_eq {F : Fmt} {x y : Fl} {a b : ℚ} (hx : Is x a) (hy : Is y b) (hb : b ≠ 0) :
    Fl.div F x y = Fl.round F (xor x.sgn y.sgn) (a / b) := by
  rcases hx.cases with ⟨_, h⟩ | ⟨h0, s, h⟩ <;> rcases hy.cases with ⟨_, h'⟩ | ⟨h0', s', h'⟩ <;>
    subst h h' <;> simp_all [Fl.div, Fl.toQ, Fl.sgn]

theorem Is.div {F : Fmt} {x y : Fl} {a b : ℚ} (hx : Is x a) (hy : Is y b) (hb : b ≠ 0)
    (h : |F.rq (a / b)| < (2 : ℚ) ^ F.emax) : Is (Fl.div F x y) (F.rq (a / b)) := by
  rw [div_eq hx hy hb]; exact Is.round _ h

theorem Is.ofInt {F : Fmt} {n : ℤ} (h : |F.rq (n : ℚ)| < (2 : ℚ) ^ F.emax) :
    Is (Fl.ofInt F n) (F.rq (n : ℚ)) := Is.round _ h

theorem Is.ofInt_in {F : Fmt} {n : ℤ} (h : F.In (n : ℚ)) : Is (Fl.ofInt F n) n := by
  have := Is.ofInt (F := F) (n := n) (by rw [F.rq_of_rep h.1]; exact h.2)
  rwa [F.rq_of_rep h.1] at this

theorem Is.cast {F : Fmt} {x : Fl} {q : ℚ} (hx : Is x q) (h : |F.rq q| < (2 : ℚ) ^ F.emax) :
    Is (Fl.cast F x) (F.rq q) := by
  rcases hx.cases with ⟨_, h'⟩ | ⟨h0, s, h'⟩
  · subst h'; exact Is.round _ h
  · subst h' h0; simpa [Fl.cast] using Is.zero s

theorem Is.ldexp {F : Fmt} {x : Fl} {q : ℚ} (hx : Is x q) {k : ℤ}
    (h : |F.rq (q * (2 : ℚ) ^ k)| < (2 : ℚ) ^ F.emax) :
    Is (Fl.ldexp F x k) (F.rq (q * (2 : ℚ) ^ k)) := by
  rcases hx.cases with ⟨_, h'⟩ | ⟨h0, s, h'⟩
  · subst h'; exact Is.round _ h
  · subst h' h0; simpa [Fl.ldexp] using Is.zero s

theorem Is.floor {x : Fl} {q : ℚ} (hx : Is x q) : Is (Fl.floor x) (⌊q⌋ : ℤ) := by
  rcases hx.cases with ⟨_, h'⟩ | ⟨h0, s, h'⟩
  · subst h'; exact Is.mk _ _
  · subst h' h0; simpa [Fl.floor] using Is.zero s

theorem trunc_int (n : ℤ) : trunc (n : ℚ) = n := by
  unfold trunc; split <;> simp

theorem Is.toInt {b : ℕ} {x : Fl} {n : ℤ} (hx : Is x (n : ℚ))
    (h : -2 ^ (b - 1) ≤ n ∧ n < 2 ^ (b - 1)) : Fl.toInt b x = .ok n := by
  rcases hx.cases with ⟨_, h'⟩ | ⟨h0, s, h'⟩
  · subst h'; unfold Fl.toInt; simp only [trunc_int]; rw [if_pos h]
  · subst h'
    have : n = 0 := by exact_mod_cast h0
    subst this; rfl

theorem lt_iff {x y : Fl} {a b : ℚ} (hx : Is x a) (hy : Is y b) : Fl.lt x y = true ↔ a < b := by
  rcases hx.cases with ⟨_, h⟩ | ⟨h0, s, h⟩ <;> rcases hy.cases with ⟨_, h'⟩ | ⟨h0', s', h'⟩ <;>
    subst h h' <;> simp_all [Fl.lt, Fl.toQ] <;>
    exact decide_eq_true_iff

theorem eq_iff {x y : Fl} {a b : ℚ} (hx : Is x a) (hy : Is y b) : Fl.eq x y = true ↔ a = b := by
  rcases hx.cases with ⟨_, h⟩ | ⟨h0, s, h⟩ <;> rcases hy.cases with ⟨_, h'⟩ | ⟨h0', s', h'⟩ <;>
    subst h h' <;> simp_all [Fl.eq, Fl.toQ] <;>
    exact decide_eq_true_iff

theorem Is.of_finite {x : Fl} (h : x.isfinite = true) (h0 : x ≠ Fl.num 0) : Is x x.toQ := by
  cases x with
  | nan => simp [Fl.isfinite] at h
  | inf s => simp [Fl.isfinite] at h
  | zero s => exact Is.zero s
  | num q => exact Is.num (by rintro rfl; exact h0 rfl)

end Fl
end Takum
