import Verif.Lemmas.Decode

/-!
# Rounding of positions; widening and narrowing conversions
-/

namespace Takum
open Spec

/-- Sign factor. -/
def sg (s : Bool) : ℚ := if s then -1 else 1

theorem sg_abs (s : Bool) (x : ℚ) : |sg s * x| = |x| := by cases s <;> simp [sg]

theorem sg_sq (s : Bool) (x : ℚ) : sg s * (sg s * x) = x := by cases s <;> simp [sg]

theorem ell_sg {n : ℕ} (hn : 5 ≤ n) (t : BitVec n) : ell t = sg t.msb * psi (pos t) := ell_eq hn t

/-- `2^(n-1) - 1`, the largest bit pattern below the sign bit. -/
def kMax (n : ℕ) : ℕ := 2 ^ (n - 1) - 1

theorem kMax_add_one (n : ℕ) : kMax n + 1 = 2 ^ (n - 1) := by
  unfold kMax
  have : 0 < 2 ^ (n - 1) := by positivity
  omega

theorem pow16 {n : ℕ} (hn : 5 ≤ n) : 2 ^ (n - 1) = 16 * 2 ^ (n - 5) := by
  rw [show (16 : ℕ) = 2 ^ 4 by norm_num, ← pow_add]; congr 1; omega

/-- The position rounded to the nearest regular bit pattern. -/
def nearK (n : ℕ) (u : ℚ) : ℕ := (max 1 (min (rne (u * ((2 ^ (n - 5) : ℕ) : ℚ))) (kMax n : ℤ))).toNat

theorem nearK_pos (n : ℕ) (u : ℚ) : 1 ≤ nearK n u := by
  unfold nearK; omega

theorem kMax_pos {n : ℕ} (hn : 2 ≤ n) : 1 ≤ kMax n := by
  have := kMax_add_one n
  have : 2 ^ 1 ≤ 2 ^ (n - 1) := Nat.pow_le_pow_right (by norm_num) (by omega)
  omega

theorem nearK_le {n : ℕ} (hn : 2 ≤ n) (u : ℚ) : nearK n u ≤ kMax n := by
  have := kMax_pos hn
  unfold nearK; omega

theorem nearK_lt {n : ℕ} (hn : 2 ≤ n) (u : ℚ) : nearK n u < 2 ^ (n - 1) := by
  have := nearK_le hn u
  have := kMax_add_one n
  omega

theorem nearK_mono (n : ℕ) {u v : ℚ} (h : u ≤ v) : nearK n u ≤ nearK n v := by
  have : rne (u * ((2 ^ (n - 5) : ℕ) : ℚ)) ≤ rne (v * ((2 ^ (n - 5) : ℕ) : ℚ)) :=
    rne_mono (mul_le_mul_of_nonneg_right h (by positivity))
  unfold nearK; omega

theorem nearK_of_int {n : ℕ} {u : ℚ} {k : ℕ} (h : u * ((2 ^ (n - 5) : ℕ) : ℚ) = k) (h1 : 1 ≤ k)
    (h2 : k ≤ kMax n) : nearK n u = k := by
  unfold nearK
  rw [h]
  have : rne ((k : ℕ) : ℚ) = (k : ℤ) := by
    have := rne_intCast (K := ℚ) (k : ℤ)
    exact_mod_cast this
  rw [this]; omega

theorem pos_mul {n : ℕ} (t : BitVec n) : pos t * ((2 ^ (n - 5) : ℕ) : ℚ) = low t := by
  unfold pos; rw [div_mul_cancel₀]; positivity

theorem nearK_pos_of_regular {n : ℕ} (hn : 1 ≤ n) {t : BitVec n} (h : Regular t) :
    nearK n (pos t) = low t :=
  nearK_of_int (pos_mul t) (low_pos hn h) (by have := low_lt t; have := kMax_add_one n; omega)

/-- Rounding is symmetric. -/
theorem nearK_symm {n : ℕ} (hn : 5 ≤ n) (u : ℚ) : nearK n (16 - u) = 2 ^ (n - 1) - nearK n u := by
  have e : (16 - u) * ((2 ^ (n - 5) : ℕ) : ℚ) = -(u * ((2 ^ (n - 5) : ℕ) : ℚ)) + ((2 ^ (n - 1) : ℕ) : ℤ) := by
    rw [pow16 hn]; push_cast; ring
  have he : ((2 ^ (n - 1) : ℕ) : ℤ) % 2 = 0 := by rw [pow16 hn]; omega
  unfold nearK
  rw [e, rne_add_even _ _ he, rne_neg]
  have := kMax_add_one n
  have := kMax_pos (by omega : 2 ≤ n)
  generalize rne (u * ((2 ^ (n - 5) : ℕ) : ℚ)) = z
  generalize 2 ^ (n - 1) = P at *
  omega

theorem regular_mkT {n : ℕ} (hn : 1 ≤ n) (s : Bool) {k : ℕ} (h1 : 1 ≤ k) (h2 : k < 2 ^ (n - 1)) :
    Regular (mkT n s k) := by
  rw [regular_iff hn, mkT_low hn s h2]; omega

theorem pos_mkT {n : ℕ} (hn : 1 ≤ n) (s : Bool) {k : ℕ} (h2 : k < 2 ^ (n - 1)) :
    pos (mkT n s k) = k / ((2 ^ (n - 5) : ℕ) : ℚ) := by
  unfold pos; rw [mkT_low hn s h2]

theorem ell_mkT {n : ℕ} (hn : 5 ≤ n) (s : Bool) {k : ℕ} (h2 : k < 2 ^ (n - 1)) :
    ell (mkT n s k) = sg s * psi (k / ((2 ^ (n - 5) : ℕ) : ℚ)) := by
  rw [ell_sg hn, mkT_msb (by omega) s h2, pos_mkT (by omega) s h2]

/-- Rounding the position is rounding to nearest on the logarithmic scale. -/
theorem nearest_mkT {n : ℕ} (hn : 5 ≤ n) (s : Bool) {u : ℚ} (h0 : 0 ≤ u) (h16 : u < 16) :
    NearestEll s (sg s * psi u) (mkT n s (nearK n u)) := by
  have hn1 : 1 ≤ n := by omega
  have hk := nearK_lt (by omega : 2 ≤ n) u
  have hW : 0 < 2 ^ (n - 5) := by positivity
  have hWq : (0 : ℚ) < ((2 ^ (n - 5) : ℕ) : ℚ) := by positivity
  have hP := pow16 hn
  refine ⟨regular_mkT hn1 s (nearK_pos n u) hk, mkT_msb hn1 s hk, ?_⟩
  intro t' ht' hm'
  have hl1 := low_pos hn1 ht'
  have hl2 := low_lt t'
  have hkm := kMax_add_one n
  rw [ell_mkT hn s hk, ell_sg hn t', hm', ← mul_sub, ← mul_sub, sg_abs, sg_abs]
  have par : (mkT n s (nearK n u)).toNat % 2 = nearK n u % 2 := by
    rw [mkT_toNat hn1 s hk, hP]; split <;> omega
  have eqt : low t' = nearK n u → t' = mkT n s (nearK n u) := by
    intro h; rw [eq_mkT hn1 t', hm', h]
  have rng : ∀ j : ℕ, j < 2 ^ (n - 1) → 0 ≤ (j : ℚ) / ((2 ^ (n - 5) : ℕ) : ℚ) ∧
      (j : ℚ) / ((2 ^ (n - 5) : ℕ) : ℚ) < 16 := by
    intro j hj
    refine ⟨by positivity, ?_⟩
    rw [div_lt_iff₀ hWq]; rw [hP] at hj; exact_mod_cast hj
  have hnn : 0 ≤ rne (u * ((2 ^ (n - 5) : ℕ) : ℚ)) := le_rne_of_le (by push_cast; positivity)
  have key : ∀ j : ℕ, j < 2 ^ (n - 1) → j ≠ low t' →
      ((j : ℚ) / ((2 ^ (n - 5) : ℕ) : ℚ) ≤ u → low t' < j → psi (pos t') < psi (j / ((2 ^ (n - 5) : ℕ) : ℚ)) ∧
        psi (j / ((2 ^ (n - 5) : ℕ) : ℚ)) ≤ psi u) ∧
      (u ≤ (j : ℚ) / ((2 ^ (n - 5) : ℕ) : ℚ) → j < low t' → psi (j / ((2 ^ (n - 5) : ℕ) : ℚ)) < psi (pos t') ∧
        psi u ≤ psi (j / ((2 ^ (n - 5) : ℕ) : ℚ))) := by
    intro j hj hne
    constructor
    · intro h h'
      refine ⟨psi_strictMono (pos_nonneg t') ?_ (rng j hj).2, psi_mono (rng j hj).1 h h16⟩
      unfold pos
      apply div_lt_div_of_pos_right _ hWq; exact_mod_cast h'
    · intro h h'
      refine ⟨psi_strictMono (rng j hj).1 ?_ (pos_lt hn t'), psi_mono h0 h (rng j hj).2⟩
      unfold pos
      apply div_lt_div_of_pos_right _ hWq; exact_mod_cast h'
  rcases lt_or_ge (rne (u * ((2 ^ (n - 5) : ℕ) : ℚ))) 1 with hlt | hge
  · -- rounds to 0
    have hz : rne (u * ((2 ^ (n - 5) : ℕ) : ℚ)) = 0 := by omega
    have hk1 : nearK n u = 1 := by
      have := kMax_pos (by omega : 2 ≤ n)
      unfold nearK; rw [hz]; omega
    have hu : u * ((2 ^ (n - 5) : ℕ) : ℚ) ≤ 1 / 2 := by
      have := sub_rne_le (u * ((2 ^ (n - 5) : ℕ) : ℚ)); rw [hz] at this; simpa using this
    rw [hk1] at hk eqt par ⊢
    by_cases he : low t' = 1
    · right; refine ⟨?_, Or.inl (eqt he)⟩; unfold pos; rw [he]
    · have hu1 : u ≤ ((1 : ℕ) : ℚ) / ((2 ^ (n - 5) : ℕ) : ℚ) := by
        rw [le_div_iff₀ hWq]; push_cast at hu ⊢; linarith
      obtain ⟨a, b⟩ := (key 1 hk (Ne.symm he)).2 hu1 (by omega)
      left
      rw [abs_of_nonneg (by linarith), abs_of_nonneg (by linarith)]; linarith
  · rcases lt_or_ge (kMax n : ℤ) (rne (u * ((2 ^ (n - 5) : ℕ) : ℚ))) with hgt | hle
    · have hk1 : nearK n u = kMax n := by
        have := kMax_pos (by omega : 2 ≤ n)
        unfold nearK; omega
      have hu : (kMax n : ℚ) ≤ u * ((2 ^ (n - 5) : ℕ) : ℚ) := by
        have h1 := neg_half_le_sub_rne (u * ((2 ^ (n - 5) : ℕ) : ℚ))
        have h2 : ((kMax n : ℤ) : ℚ) + 1 ≤ rne (u * ((2 ^ (n - 5) : ℕ) : ℚ)) := by exact_mod_cast hgt
        push_cast at h2 ⊢; push_cast at h1; linarith
      rw [hk1] at hk eqt par ⊢
      by_cases he : low t' = kMax n
      · right; refine ⟨?_, Or.inl (eqt he)⟩; unfold pos; rw [he]
      · have hu1 : (kMax n : ℚ) / ((2 ^ (n - 5) : ℕ) : ℚ) ≤ u := by
          rw [div_le_iff₀ hWq]; exact hu
        obtain ⟨a, b⟩ := (key _ hk (Ne.symm he)).1 hu1 (by omega)
        left
        rw [abs_of_nonpos (by linarith), abs_of_nonpos (by linarith)]; linarith
    · have hk1 : rne (u * ((2 ^ (n - 5) : ℕ) : ℚ)) = nearK n u := by
        unfold nearK; omega
      rcases psi_nearest hW h0 h16 hk1 (by rw [← hP]; exact hk) (k' := low t') (by rw [← hP]; exact hl2) with h | ⟨h, h'⟩
      · left; unfold pos; exact h
      · right; refine ⟨by unfold pos; exact h, ?_⟩
        rcases h' with h' | h'
        · left; exact eqt h'
        · right; rw [par]; exact h'

/-- Arguments beyond the range are rounded to the extreme takum. -/
theorem nearest_high {n : ℕ} (hn : 5 ≤ n) (s : Bool) {x : ℚ}
    (hx : psi ((kMax n : ℚ) / ((2 ^ (n - 5) : ℕ) : ℚ)) ≤ x) :
    NearestEll s (sg s * x) (mkT n s (kMax n)) := by
  have hn1 : 1 ≤ n := by omega
  have hkm := kMax_add_one n
  have hk : kMax n < 2 ^ (n - 1) := by omega
  have hk1 := kMax_pos (by omega : 2 ≤ n)
  refine ⟨regular_mkT hn1 s hk1 hk, mkT_msb hn1 s hk, ?_⟩
  intro t' ht' hm'
  have hl2 := low_lt t'
  rw [ell_mkT hn s hk, ell_sg hn t', hm', ← mul_sub, ← mul_sub, sg_abs, sg_abs]
  have hWq : (0 : ℚ) < ((2 ^ (n - 5) : ℕ) : ℚ) := by positivity
  by_cases he : low t' = kMax n
  · right; refine ⟨by unfold pos; rw [he], Or.inl ?_⟩; rw [eq_mkT hn1 t', hm', he]
  · left
    have : psi (pos t') < psi ((kMax n : ℚ) / ((2 ^ (n - 5) : ℕ) : ℚ)) := by
      apply psi_strictMono (pos_nonneg t')
      · unfold pos
        apply div_lt_div_of_pos_right _ hWq
        have : low t' < kMax n := by omega
        exact_mod_cast this
      · rw [div_lt_iff₀ hWq]; rw [pow16 hn] at hk; exact_mod_cast hk
    rw [abs_of_nonpos (by linarith), abs_of_nonpos (by linarith)]; linarith

theorem nearest_low {n : ℕ} (hn : 5 ≤ n) (s : Bool) {x : ℚ}
    (hx : x ≤ psi ((1 : ℚ) / ((2 ^ (n - 5) : ℕ) : ℚ))) :
    NearestEll s (sg s * x) (mkT n s 1) := by
  have hn1 : 1 ≤ n := by omega
  have hkm := kMax_add_one n
  have hk1 := kMax_pos (by omega : 2 ≤ n)
  have hk : 1 < 2 ^ (n - 1) := by omega
  refine ⟨regular_mkT hn1 s (le_refl 1) hk, mkT_msb hn1 s hk, ?_⟩
  intro t' ht' hm'
  have hl1 := low_pos hn1 ht'
  rw [ell_mkT hn s hk, ell_sg hn t', hm', ← mul_sub, ← mul_sub, sg_abs, sg_abs]
  have hWq : (0 : ℚ) < ((2 ^ (n - 5) : ℕ) : ℚ) := by positivity
  rw [Nat.cast_one]
  by_cases he : low t' = 1
  · right; refine ⟨by unfold pos; rw [he, Nat.cast_one], Or.inl ?_⟩; rw [eq_mkT hn1 t', hm', he]
  · left
    have : psi ((1 : ℚ) / ((2 ^ (n - 5) : ℕ) : ℚ)) < psi (pos t') := by
      apply psi_strictMono (by positivity)
      · unfold pos
        apply div_lt_div_of_pos_right _ hWq
        have : 1 < low t' := by omega
        exact_mod_cast this
      · exact pos_lt hn t'
    rw [abs_of_nonneg (by linarith), abs_of_nonneg (by linarith)]; linarith

/-! ### Widening -/

theorem expand_spec {a b : W} (h : a.n < b.n) (t : T a) :
    ∃ v : T b, expand a b t = .ok v ∧ v.msb = t.msb ∧ low v = low t * 2 ^ (b.n - a.n) := by
  have h8 := a.n_pos
  have ht := t.isLt
  have hp : 2 ^ b.n = 2 ^ a.n * 2 ^ (b.n - a.n) := by rw [← pow_add]; congr 1; omega
  have hab : 2 ^ a.n ≤ 2 ^ b.n := Nat.pow_le_pow_right (by norm_num) h.le
  have hs : (t.setWidth b.n).toNat = t.toNat := by
    rw [BitVec.toNat_setWidth, Nat.mod_eq_of_lt (by omega)]
  have hv : ((t.setWidth b.n) <<< (b.n - a.n)).toNat = t.toNat * 2 ^ (b.n - a.n) := by
    rw [BitVec.toNat_shiftLeft, hs, Nat.shiftLeft_eq, Nat.mod_eq_of_lt]
    rw [hp]; exact Nat.mul_lt_mul_of_pos_right ht (by positivity)
  refine ⟨(t.setWidth b.n) <<< (b.n - a.n), ?_, ?_⟩
  · unfold expand
    have : ((b.n : ℤ) - a.n) = ((b.n - a.n : ℕ) : ℤ) := by omega
    rw [this]
    apply shl_ok
    · intro h32
      have : b.n ≤ 16 := by cases b <;> simp [W.n] at h32 ⊢
      refine ⟨by omega, ?_⟩
      rw [hs]
      calc t.toNat * 2 ^ (b.n - a.n) < 2 ^ b.n := by
            rw [hp]; exact Nat.mul_lt_mul_of_pos_right ht (by positivity)
        _ ≤ 2 ^ 16 := Nat.pow_le_pow_right (by norm_num) this
        _ < 2 ^ 31 := by norm_num
    · omega
  · have e1 : b.n - 1 = (a.n - 1) + (b.n - a.n) := by omega
    constructor
    · rw [BitVec.msb_eq_decide, BitVec.msb_eq_decide, hv, e1, pow_add]
      apply decide_eq_decide.mpr
      exact Nat.mul_le_mul_right_iff (by positivity)
    · unfold low
      rw [hv, e1, pow_add, Nat.mul_mod_mul_right]

theorem expand_pos {a b : W} (h : a.n < b.n) {t : T a} {v : T b} (hl : low v = low t * 2 ^ (b.n - a.n)) :
    pos v = pos t := by
  have h8 := a.n_pos
  unfold pos
  rw [hl, div_eq_div_iff (by positivity) (by positivity)]
  have : 2 ^ (b.n - 5) = 2 ^ (b.n - a.n) * 2 ^ (a.n - 5) := by rw [← pow_add]; congr 1; omega
  rw [this]; push_cast; ring

/-! ### Narrowing -/

theorem ofInt_small {n : ℕ} (hn : 2 ≤ n) :
    BitVec.ofInt n 1 = 1#n ∧ BitVec.ofInt n (-1) = BitVec.allOnes n ∧ BitVec.ofInt n 0 = 0#n := by
  refine ⟨?_, ?_, ?_⟩ <;> apply BitVec.eq_of_toInt_eq
  · simp
  · simp [BitVec.toInt_ofInt, BitVec.toInt_allOnes]
    have : 0 < n := by omega
    simp [this]
    rw [Int.bmod_def]
    have h2 : (2 : ℤ) ^ n = 4 * 2 ^ (n - 2) := by
      rw [show (4 : ℤ) = 2 ^ 2 by norm_num, ← pow_add]; congr 1; omega
    have h3 : (0 : ℤ) < 2 ^ (n - 2) := by positivity
    push_cast
    rw [h2]
    have : (-1 : ℤ) % (4 * 2 ^ (n - 2)) = 4 * 2 ^ (n - 2) - 1 := by
      rw [Int.emod_eq_iff (by positivity)]
      refine ⟨by omega, by omega, ⟨1, by ring⟩⟩
    rw [this]
    split <;> omega
  · simp

theorem reduce_zero {a b : W} (h : b.n < a.n) : reduce a b 0#a.n = .ok 0#b.n := by
  have h8 := b.n_pos
  obtain ⟨v, hv, hv2⟩ := utilRound_spec (0#a.n) (by omega : 1 ≤ b.n) h
  have : v = 0#a.n := by
    apply BitVec.eq_of_toNat_eq
    simp at hv2; simpa using hv2
  subst this
  unfold reduce
  have hz : (0#b.n == NAR b.n) = false := by
    rw [NAR_eq (by omega)]; simpa using (nar_ne_zero (by omega : 1 ≤ b.n)).symm
  simp [hv, bind, Except.bind, pure, Except.pure, hz, b2i]

theorem reduce_nar {a b : W} (h : b.n < a.n) : reduce a b (nar a.n) = .ok (nar b.n) := by
  have h8 := b.n_pos
  obtain ⟨v, hv, hv2⟩ := utilRound_spec (nar a.n) (by omega : 1 ≤ b.n) h
  have e : (v.toNat : ℤ) = 2 ^ (b.n - 1) := by
    rw [hv2, nar_eq, mkT_toNat (by omega) _ (by positivity)]
    have : (((if true = true then 1 else 0) * 2 ^ (a.n - 1) + 0 : ℕ) : ℚ) / ((2 ^ (a.n - b.n) : ℕ) : ℚ) =
        ((2 ^ (b.n - 1) : ℤ) : ℚ) := by
      have : 2 ^ (a.n - 1) = 2 ^ (b.n - 1) * 2 ^ (a.n - b.n) := by rw [← pow_add]; congr 1; omega
      rw [div_eq_iff (by positivity)]
      push_cast
      simp
      exact_mod_cast this
    rw [this, rne_intCast]
  have e' : v.toNat = 2 ^ (b.n - 1) := by exact_mod_cast e
  have hb : 2 ^ b.n = 2 * 2 ^ (b.n - 1) := by rw [← pow_succ']; congr 1; omega
  have hs : v.setWidth b.n = nar b.n := by
    apply BitVec.eq_of_toNat_eq
    have : 0 < 2 ^ (b.n - 1) := by positivity
    rw [BitVec.toNat_setWidth, e', Nat.mod_eq_of_lt (by omega), nar_eq, mkT_toNat (by omega) _ (by positivity)]
    simp
  have hz : (nar b.n == 0#b.n) = false := by simpa using nar_ne_zero (by omega : 1 ≤ b.n)
  unfold reduce
  simp only [hv, bind, Except.bind, pure, Except.pure, hs, NAR_eq (by omega : 1 ≤ a.n),
    NAR_eq (by omega : 1 ≤ b.n), hz]
  simp [b2i]

theorem reduce_regular {a b : W} (h : b.n < a.n) {t : T a} (ht : Regular t) :
    reduce a b t = .ok (mkT b.n t.msb (nearK b.n (pos t))) := by
  have h8 := b.n_pos
  have ha1 : 1 ≤ a.n := by omega
  have hb1 : 1 ≤ b.n := by omega
  obtain ⟨v, hv, hv2⟩ := utilRound_spec t hb1 h
  have hlow := low_lt t
  have hlp := low_pos ha1 ht
  -- the rounded bits
  have hpw : 2 ^ (a.n - 1) = 2 ^ (b.n - 1) * 2 ^ (a.n - b.n) := by rw [← pow_add]; congr 1; omega
  set z := rne (pos t * ((2 ^ (b.n - 5) : ℕ) : ℚ)) with hz
  have e : (v.toNat : ℤ) = (if t.msb then 1 else 0) * 2 ^ (b.n - 1) + z := by
    rw [hv2, toNat_eq ha1 t]
    have hx : (((if t.msb then 1 else 0) * 2 ^ (a.n - 1) + low t : ℕ) : ℚ) / ((2 ^ (a.n - b.n) : ℕ) : ℚ) =
        pos t * ((2 ^ (b.n - 5) : ℕ) : ℚ) + (((if t.msb then 1 else 0) * 2 ^ (b.n - 1) : ℤ) : ℚ) := by
      unfold pos
      have h5 : 2 ^ (a.n - 5) = 2 ^ (b.n - 5) * 2 ^ (a.n - b.n) := by rw [← pow_add]; congr 1; omega
      rw [h5, hpw, Nat.cast_add, Nat.cast_mul, Nat.cast_mul, Nat.cast_mul]
      have p1 : ((2 ^ (b.n - 5) : ℕ) : ℚ) ≠ 0 := by positivity
      have p2 : ((2 ^ (a.n - b.n) : ℕ) : ℚ) ≠ 0 := by positivity
      field_simp
      cases t.msb <;> simp
      ring
    rw [hx, rne_add_even]
    · ring
    · have : (2 : ℤ) ^ (b.n - 1) = 16 * 2 ^ (b.n - 5) := by exact_mod_cast pow16 (by omega : 5 ≤ b.n)
      rw [this]; split <;> omega
  have z0 : 0 ≤ z := le_rne_of_le (by push_cast; have := pos_nonneg t; positivity)
  have z1 : z ≤ 2 ^ (b.n - 1) := by
    apply rne_le_of_le
    have h1 := (pos_lt (by omega : 5 ≤ a.n) t).le
    have h2 : ((2 ^ (b.n - 1) : ℕ) : ℚ) = 16 * ((2 ^ (b.n - 5) : ℕ) : ℚ) := by
      rw [pow16 (by omega : 5 ≤ b.n)]; push_cast; ring
    push_cast at h2 ⊢
    rw [h2]
    exact mul_le_mul_of_nonneg_right h1 (by positivity)
  obtain ⟨k, hk⟩ := Int.eq_ofNat_of_zero_le z0
  have hkz : (k : ℤ) = z := hk.symm
  have hkle : k ≤ 2 ^ (b.n - 1) := by rw [hk] at z1; exact_mod_cast z1
  have e' : v.toNat = (if t.msb then 1 else 0) * 2 ^ (b.n - 1) + k := by
    rw [hk] at e
    have : ((v.toNat : ℕ) : ℤ) = (((if t.msb then 1 else 0) * 2 ^ (b.n - 1) + k : ℕ) : ℤ) := by
      rw [e]; push_cast; rfl
    exact_mod_cast this
  have hb : 2 ^ b.n = 2 * 2 ^ (b.n - 1) := by rw [← pow_succ']; congr 1; omega
  have hkm := kMax_add_one b.n
  have hkm1 := kMax_pos (by omega : 2 ≤ b.n)
  have hnk : nearK b.n (pos t) = max 1 (min k (kMax b.n)) := by
    unfold nearK; rw [← hz, hk]; omega
  have hout : (v.setWidth b.n).toNat = ((if t.msb then 1 else 0) * 2 ^ (b.n - 1) + k) % 2 ^ b.n := by
    rw [BitVec.toNat_setWidth, e']
  have ht0 : (t != 0#a.n) = true := by simpa using ht.1
  have htn : (t != NAR a.n) = true := by rw [NAR_eq ha1]; simpa using ht.2
  obtain ⟨o1, o2, o3⟩ := ofInt_small (by omega : 2 ≤ b.n)
  have hP0 : 0 < 2 ^ (b.n - 1) := by positivity
  have b1 : ((v.setWidth b.n) == 0#b.n) = decide (((if t.msb then 1 else 0) * 2 ^ (b.n - 1) + k) % 2 ^ b.n = 0) := by
    rw [Bool.eq_iff_iff, beq_iff_eq, decide_eq_true_iff, ← BitVec.toNat_inj, hout]; simp
  have b2 : ((v.setWidth b.n) == NAR b.n) =
      decide (((if t.msb then 1 else 0) * 2 ^ (b.n - 1) + k) % 2 ^ b.n = 2 ^ (b.n - 1)) := by
    rw [Bool.eq_iff_iff, beq_iff_eq, decide_eq_true_iff, ← BitVec.toNat_inj, hout, NAR_eq hb1, nar_eq,
      mkT_toNat hb1 _ hP0]
    simp
  unfold reduce
  simp only [hv, bind, Except.bind, pure, Except.pure]
  rw [b1, b2, ht0, htn, isNeg_eq, hnk]
  congr 1
  apply BitVec.eq_of_toNat_eq
  rw [mkT_toNat hb1 _ (by omega), BitVec.toNat_add, hout]
  have ones : (BitVec.allOnes b.n).toNat = 2 ^ b.n - 1 := BitVec.toNat_allOnes
  have hone : (1#b.n).toNat = 1 := by
    rw [BitVec.toNat_ofNat]; exact Nat.mod_eq_of_lt (Nat.one_lt_two_pow (by omega))
  rw [hb] at *
  generalize 2 ^ (b.n - 1) = P at *
  cases hm : t.msb
  · -- positive
    simp only [Bool.false_eq_true, if_false, zero_mul, zero_add, Bool.and_true, b2i]
    rw [Nat.mod_eq_of_lt (by omega : k < 2 * P)]
    rcases Nat.eq_zero_or_pos k with h0 | h0
    · subst h0
      have : ¬ (0 = P) := by omega
      simp only [decide_true, if_true, this, decide_false, Bool.false_eq_true, if_false]
      norm_num [o1, hone]
      first | omega | (rw [Nat.mod_eq_of_lt (by omega)]; try omega)
    · have h0' : ¬ (k = 0) := by omega
      simp only [h0', decide_false, Bool.false_eq_true, if_false]
      by_cases hkP : k = P
      · simp only [hkP, decide_true, if_true]
        norm_num [o2, ones]
        have : P + (2 * P - 1) = 2 * P + (P - 1) := by omega
        rw [this, Nat.add_mod_left, Nat.mod_eq_of_lt (by omega)]; omega
      · simp only [hkP, decide_false, Bool.false_eq_true, if_false]
        norm_num [o3]
        rw [Nat.mod_eq_of_lt (by omega)]; omega
  · simp only [if_true, one_mul, Bool.and_true, b2i]
    rcases Nat.lt_or_ge k P with hlt | hge
    · rw [Nat.mod_eq_of_lt (by omega : P + k < 2 * P)]
      have c1 : ¬ (P + k = 0) := by omega
      simp only [c1, decide_false, Bool.false_eq_true, if_false]
      rcases Nat.eq_zero_or_pos k with h0 | h0
      · subst h0
        simp only [add_zero, decide_true, if_true]
        norm_num [o1, hone]
        first | omega | (rw [Nat.mod_eq_of_lt (by omega)]; try omega)
      · have c2 : ¬ (P + k = P) := by omega
        simp only [c2, decide_false, Bool.false_eq_true, if_false]
        norm_num [o3]
        rw [Nat.mod_eq_of_lt (by omega)]; omega
    · have hkP : k = P := by omega
      have c0 : (P + k) % (2 * P) = 0 := by rw [hkP, ← two_mul]; exact Nat.mod_self _
      have c1 : ¬ (0 = P) := by omega
      rw [c0]
      simp only [decide_true, if_true, c1, decide_false, Bool.false_eq_true, if_false]
      norm_num [o2, ones]
      first | omega | (rw [Nat.mod_eq_of_lt (by omega)]; try omega)

end Takum
