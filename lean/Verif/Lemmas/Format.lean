import Verif.Lemmas.Psi
import Verif.Spec

/-!
# The format specification in terms of the position map
-/

namespace Takum
open Spec

/-- The bits without the sign bit. -/
def low {n : ℕ} (t : BitVec n) : ℕ := t.toNat % 2 ^ (n - 1)

/-- The position, in `[0,16)`, of the bits without the sign bit. -/
def pos {n : ℕ} (t : BitVec n) : ℚ := (low t : ℚ) / ((2 ^ (n - 5) : ℕ) : ℚ)

theorem low_lt {n : ℕ} (t : BitVec n) : low t < 2 ^ (n - 1) := Nat.mod_lt _ (by positivity)

theorem low_lt16 {n : ℕ} (hn : 5 ≤ n) (t : BitVec n) : low t < 16 * 2 ^ (n - 5) := by
  have h : 2 ^ (n - 1) = 16 * 2 ^ (n - 5) := by
    rw [show (16 : ℕ) = 2 ^ 4 by norm_num, ← pow_add]; congr 1; omega
  have := low_lt t
  omega

theorem pos_nonneg {n : ℕ} (t : BitVec n) : 0 ≤ pos t := by unfold pos; positivity

theorem pos_lt {n : ℕ} (hn : 5 ≤ n) (t : BitVec n) : pos t < 16 := by
  unfold pos
  rw [div_lt_iff₀ (by positivity)]
  exact_mod_cast low_lt16 hn t

theorem toNat_eq {n : ℕ} (hn : 1 ≤ n) (t : BitVec n) :
    t.toNat = (if t.msb then 1 else 0) * 2 ^ (n - 1) + low t := by
  have h := t.isLt
  have h2 : 2 ^ n = 2 * 2 ^ (n - 1) := by rw [← pow_succ']; congr 1; omega
  unfold low
  have hm : t.msb = decide (2 ^ (n - 1) ≤ t.toNat) := BitVec.msb_eq_decide t
  rw [hm]
  by_cases hc : 2 ^ (n - 1) ≤ t.toNat
  · simp only [hc, decide_true, if_true]
    have : t.toNat % 2 ^ (n - 1) = t.toNat - 2 ^ (n - 1) := by
      rw [Nat.mod_eq_sub_mod hc, Nat.mod_eq_of_lt (by omega)]
    omega
  · simp only [hc, decide_false]
    rw [Nat.mod_eq_of_lt (by omega)]
    simp

theorem S_eq {n : ℕ} (hn : 1 ≤ n) (t : BitVec n) : S t = if t.msb then 1 else 0 := by
  unfold S str len
  have hl : max n 12 - 1 = (n - 1) + (max n 12 - n) := by omega
  rw [hl, pow_add, Nat.mul_div_mul_right _ _ (by positivity)]
  have := toNat_eq hn t
  have h2 := low_lt t
  rw [this, mul_comm, Nat.mul_add_div (by positivity), Nat.div_eq_of_lt h2]
  simp

theorem neg_one_pow_S {n : ℕ} (hn : 1 ≤ n) (t : BitVec n) :
    ((-1 : ℚ)) ^ S t = if t.msb then -1 else 1 := by
  rw [S_eq hn]; split <;> simp

theorem str_low {n : ℕ} (hn : 1 ≤ n) (t : BitVec n) :
    str t % 2 ^ (len n - 1) = low t * 2 ^ (len n - n) := by
  unfold str low len
  have hl : max n 12 - 1 = (n - 1) + (max n 12 - n) := by omega
  rw [hl, pow_add, Nat.mul_mod_mul_right]

/-- The four bits after the sign bit. -/
def dr {n : ℕ} (t : BitVec n) : ℕ := low t / 2 ^ (n - 5)

theorem dr_lt {n : ℕ} (hn : 5 ≤ n) (t : BitVec n) : dr t < 16 := by
  unfold dr; rw [Nat.div_lt_iff_lt_mul (by positivity)]; exact low_lt16 hn t

theorem D_eq {n : ℕ} (hn : 5 ≤ n) (t : BitVec n) : D t = dr t / 8 := by
  unfold D dr
  have h1 : str t / 2 ^ (len n - 2) % 2 = (str t % 2 ^ (len n - 1)) / 2 ^ (len n - 2) := by
    have : 2 ^ (len n - 1) = 2 ^ (len n - 2) * 2 := by rw [← pow_succ]; congr 1; unfold len; omega
    rw [this, Nat.mod_mul_right_div_self]
  have hl : len n - 2 = (n - 2) + (len n - n) := by unfold len; omega
  rw [h1, str_low (by omega), hl, pow_add, Nat.mul_div_mul_right _ _ (by positivity),
    Nat.div_div_eq_div_mul]
  congr 1
  rw [show (8 : ℕ) = 2 ^ 3 by norm_num, ← pow_add]; congr 1; omega

theorem R_eq {n : ℕ} (hn : 5 ≤ n) (t : BitVec n) : R t = dr t % 8 := by
  unfold R dr
  have hl : len n - 5 = (n - 5) + (len n - n) := by unfold len; omega
  have h1 : str t / 2 ^ (len n - 5) % 8 = (str t % 2 ^ (len n - 1)) / 2 ^ (len n - 5) % 8 := by
    have : 2 ^ (len n - 1) = 2 ^ (len n - 5) * (8 * 2) := by
      rw [show (8 * 2 : ℕ) = 2 ^ 4 by norm_num, ← pow_add]; congr 1; unfold len; omega
    rw [this, Nat.mod_mul_right_div_self, Nat.mod_mul_right_mod]
  rw [h1, str_low (by omega), hl, pow_add, Nat.mul_div_mul_right _ _ (by positivity)]

theorem r_eq {n : ℕ} (hn : 5 ≤ n) (t : BitVec n) : r t = rr (dr t) := by
  have h := dr_lt hn t
  unfold r rr
  rw [D_eq hn, R_eq hn]
  generalize dr t = d at h
  revert h; revert d; decide

theorem biasN_eq {n : ℕ} (hn : 5 ≤ n) (t : BitVec n) :
    c t = bias (dr t) + Cbits t := by
  have h := dr_lt hn t
  unfold c
  rw [r_eq hn, D_eq hn]
  generalize dr t = d at h
  have : ∀ d < 16, (d / 8 = 0 → (-2 ^ (rr d + 1) + 1 : ℤ) = bias d) ∧
    (d / 8 ≠ 0 → (2 ^ rr d - 1 : ℤ) = bias d) := by decide
  obtain ⟨h1, h2⟩ := this d h
  split
  · rw [h1 ‹_›]
  · rw [h2 ‹_›]

theorem r_le {n : ℕ} (hn : 5 ≤ n) (t : BitVec n) : r t ≤ 7 := by
  rw [r_eq hn]; exact rr_le _ (dr_lt hn t)

theorem p_add_r {n : ℕ} (hn : 5 ≤ n) (t : BitVec n) : p t + r t = len n - 5 := by
  have := r_le hn t
  unfold p len; omega

theorem cpm_eq {n : ℕ} (hn : 5 ≤ n) (t : BitVec n) : (c t : ℚ) + m t = psi (pos t) := by
  have hd : (dr t : ℚ) ≤ pos t ∧ pos t < dr t + 1 := by
    have h1 : dr t * 2 ^ (n - 5) ≤ low t := Nat.div_mul_le_self _ _
    have h2 : low t < (dr t + 1) * 2 ^ (n - 5) := by
      have := Nat.lt_div_mul_add (a := low t) (b := 2 ^ (n - 5)) (by positivity)
      unfold dr; rw [add_mul, one_mul]; exact this
    unfold pos
    rw [le_div_iff₀ (by positivity), div_lt_iff₀ (by positivity)]
    constructor
    · exact_mod_cast h1
    · exact_mod_cast h2
  rw [psi_eq_piece hd.1 hd.2]
  unfold piece
  rw [biasN_eq hn, ← r_eq hn]
  have hp := p_add_r hn t
  have hpos : (0 : ℚ) < 2 ^ p t := by positivity
  have hl : len n - 5 = (n - 5) + (len n - n) := by unfold len; omega
  -- Cbits·2^p + M = str mod 2^(p+r)
  have key : Cbits t * 2 ^ p t + M t = str t % 2 ^ (len n - 5) := by
    unfold Cbits M
    rw [← hp, pow_add, Nat.mod_mul, add_comm, mul_comm]
  have key2 : str t % 2 ^ (len n - 5) = (low t % 2 ^ (n - 5)) * 2 ^ (len n - n) := by
    have : str t % 2 ^ (len n - 5) = (str t % 2 ^ (len n - 1)) % 2 ^ (len n - 5) := by
      rw [Nat.mod_mod_of_dvd]
      exact pow_dvd_pow 2 (by unfold len; omega)
    rw [this, str_low (by omega), hl, pow_add, Nat.mul_mod_mul_right]
  have key3 : low t = dr t * 2 ^ (n - 5) + low t % 2 ^ (n - 5) := by
    unfold dr; rw [mul_comm]; exact (Nat.div_add_mod _ _).symm
  have k : (Cbits t : ℚ) * 2 ^ p t + M t = (low t - dr t * 2 ^ (n - 5)) * 2 ^ (len n - n) := by
    have e1 : ((Cbits t * 2 ^ p t + M t : ℕ) : ℚ) = ((low t % 2 ^ (n - 5) : ℕ) : ℚ) * 2 ^ (len n - n) := by
      rw [key, key2]; push_cast; ring
    have e2 : (low t : ℚ) = dr t * 2 ^ (n - 5) + ((low t % 2 ^ (n - 5) : ℕ) : ℚ) := by
      exact_mod_cast key3
    rw [e2]; push_cast at e1 ⊢; rw [e1]; ring
  unfold m pos
  have hpw : (2 : ℚ) ^ (n - 5) * 2 ^ (len n - n) = 2 ^ p t * 2 ^ r t := by
    rw [← pow_add, ← pow_add, hp, hl]
  have hn5 : (0 : ℚ) < 2 ^ (n - 5) := by positivity
  push_cast
  have h3 : ((Cbits t : ℚ) + M t / 2 ^ p t) = 2 ^ r t * (low t / 2 ^ (n - 5) - dr t) := by
    field_simp
    rw [k, ← sub_eq_zero]
    have : ((low t : ℚ) - dr t * 2 ^ (n - 5)) * 2 ^ (len n - n) * 2 ^ (n - 5) =
      (low t - dr t * 2 ^ (n - 5)) * (2 ^ (n - 5) * 2 ^ (len n - n)) := by ring
    rw [this, hpw]; ring
  linarith

theorem ell_eq {n : ℕ} (hn : 5 ≤ n) (t : BitVec n) :
    ell t = (if t.msb then -1 else 1) * psi (pos t) := by
  unfold ell; rw [neg_one_pow_S (by omega), cpm_eq hn]

theorem m_range {n : ℕ} (t : BitVec n) : 0 ≤ m t ∧ m t < 1 := by
  unfold m
  refine ⟨by positivity, ?_⟩
  rw [div_lt_one (by positivity)]
  have : M t < 2 ^ p t := Nat.mod_lt _ (by positivity)
  exact_mod_cast this

/-- The takum of `n` bits with the given sign and low bits. -/
def mkT (n : ℕ) (s : Bool) (k : ℕ) : BitVec n := BitVec.ofNat n ((if s then 1 else 0) * 2 ^ (n - 1) + k)

theorem mkT_toNat {n : ℕ} (hn : 1 ≤ n) (s : Bool) {k : ℕ} (hk : k < 2 ^ (n - 1)) :
    (mkT n s k).toNat = (if s then 1 else 0) * 2 ^ (n - 1) + k := by
  have h2 : 2 ^ n = 2 * 2 ^ (n - 1) := by rw [← pow_succ']; congr 1; omega
  unfold mkT
  rw [BitVec.toNat_ofNat, Nat.mod_eq_of_lt]
  split <;> omega

theorem mkT_msb {n : ℕ} (hn : 1 ≤ n) (s : Bool) {k : ℕ} (hk : k < 2 ^ (n - 1)) :
    (mkT n s k).msb = s := by
  rw [BitVec.msb_eq_decide, mkT_toNat hn s hk]
  cases s <;> simp [hk]

theorem mkT_low {n : ℕ} (hn : 1 ≤ n) (s : Bool) {k : ℕ} (hk : k < 2 ^ (n - 1)) :
    low (mkT n s k) = k := by
  unfold low
  rw [mkT_toNat hn s hk]
  cases s
  · simpa using Nat.mod_eq_of_lt hk
  · simpa using Nat.mod_eq_of_lt hk

theorem eq_mkT {n : ℕ} (hn : 1 ≤ n) (t : BitVec n) : t = mkT n t.msb (low t) := by
  apply BitVec.eq_of_toNat_eq
  rw [mkT_toNat hn _ (low_lt t)]
  exact toNat_eq hn t

theorem ext_low {n : ℕ} (hn : 1 ≤ n) {t t' : BitVec n} (h1 : t.msb = t'.msb) (h2 : low t = low t') :
    t = t' := by
  rw [eq_mkT hn t, eq_mkT hn t', h1, h2]

theorem nar_eq {n : ℕ} : nar n = mkT n true 0 := by
  unfold nar mkT; simp

theorem zero_eq {n : ℕ} : 0#n = mkT n false 0 := by
  unfold mkT; simp

theorem regular_iff {n : ℕ} (hn : 1 ≤ n) (t : BitVec n) : Regular t ↔ low t ≠ 0 := by
  have h0 : (0 : ℕ) < 2 ^ (n - 1) := by positivity
  unfold Regular
  constructor
  · rintro ⟨h1, h2⟩ h
    have := eq_mkT hn t
    rw [h] at this
    cases hm : t.msb
    · rw [hm, ← zero_eq] at this; exact h1 this
    · rw [hm, ← nar_eq] at this; exact h2 this
  · intro h
    constructor
    · intro h'; rw [h', zero_eq, mkT_low hn _ h0] at h; exact h rfl
    · intro h'; rw [h', nar_eq, mkT_low hn _ h0] at h; exact h rfl

theorem low_pos {n : ℕ} (hn : 1 ≤ n) {t : BitVec n} (h : Regular t) : 0 < low t :=
  Nat.pos_of_ne_zero ((regular_iff hn t).mp h)

theorem pos_pos {n : ℕ} (hn : 1 ≤ n) {t : BitVec n} (h : Regular t) : 0 < pos t := by
  have := low_pos hn h
  unfold pos; positivity

theorem nar_msb {n : ℕ} (hn : 1 ≤ n) : (nar n).msb = true := by
  rw [nar_eq, mkT_msb hn _ (by positivity)]

theorem nar_ne_zero {n : ℕ} (hn : 1 ≤ n) : nar n ≠ 0#n := by
  intro h
  have := nar_msb hn
  rw [h] at this
  simp at this

/-- Signed value of the bit string. -/
theorem toInt_mkT {n : ℕ} (hn : 1 ≤ n) (t : BitVec n) :
    t.toInt = (low t : ℤ) - (if t.msb then 2 ^ (n - 1) else 0) := by
  have h2 : 2 ^ n = 2 * 2 ^ (n - 1) := by rw [← pow_succ']; congr 1; omega
  rw [BitVec.toInt_eq_msb_cond, toNat_eq hn t]
  have h3 : (2 : ℤ) ^ n = 2 * 2 ^ (n - 1) := by exact_mod_cast h2
  by_cases hm : t.msb = true
  · simp [hm, h3]; ring
  · simp [hm]

/-! ### λ, the map from linear takum positions to values -/

/-- `(1 + frac x)·2^⌊x⌋` -/
def lam (x : ℚ) : ℚ := (1 + Int.fract x) * (2 : ℚ) ^ ⌊x⌋

theorem lam_pos (x : ℚ) : 0 < lam x := by
  unfold lam
  have := Int.fract_nonneg x
  have : (0 : ℚ) < (2 : ℚ) ^ ⌊x⌋ := zpow_pos (by norm_num) _
  positivity

theorem lam_bounds (x : ℚ) : (2 : ℚ) ^ ⌊x⌋ ≤ lam x ∧ lam x < (2 : ℚ) ^ (⌊x⌋ + 1) := by
  have h0 := Int.fract_nonneg x
  have h1 := Int.fract_lt_one x
  have hp : (0 : ℚ) < (2 : ℚ) ^ ⌊x⌋ := zpow_pos (by norm_num) _
  unfold lam
  rw [zpow_add_one₀ (by norm_num)]
  constructor
  · nlinarith
  · nlinarith

theorem lam_strictMono : StrictMono lam := by
  intro x y h
  rcases eq_or_lt_of_le (Int.floor_le_floor h.le) with hf | hf
  · unfold lam
    rw [← hf]
    have hp : (0 : ℚ) < (2 : ℚ) ^ ⌊x⌋ := zpow_pos (by norm_num) _
    have : Int.fract x < Int.fract y := by
      unfold Int.fract; rw [← hf]; linarith
    exact mul_lt_mul_of_pos_right (by linarith) hp
  · calc lam x < (2 : ℚ) ^ (⌊x⌋ + 1) := (lam_bounds x).2
      _ ≤ (2 : ℚ) ^ ⌊y⌋ := zpow_le_zpow_right₀ (by norm_num) hf
      _ ≤ lam y := (lam_bounds y).1

theorem linVal_eq {n : ℕ} (hn : 5 ≤ n) {t : BitVec n} (h : Regular t) :
    linVal t = some ((if t.msb then -1 else 1) * lam (ell t)) := by
  unfold linVal
  rw [if_neg h.2, if_neg h.1]
  congr 1
  obtain ⟨m0, m1⟩ := m_range t
  have hS := S_eq (by omega : 1 ≤ n) t
  unfold e ell lam
  rw [hS]
  cases hm : t.msb
  · simp only [Bool.false_eq_true, if_false, pow_zero, one_mul, Nat.cast_zero, mul_zero, sub_zero,
      add_zero]
    have hf : ⌊(c t : ℚ) + m t⌋ = c t := by rw [Int.floor_eq_iff]; constructor <;> linarith
    have hfr : Int.fract ((c t : ℚ) + m t) = m t := by unfold Int.fract; rw [hf]; ring
    rw [hf, hfr]
  · simp only [if_true, pow_one, Nat.cast_one, mul_one]
    rcases eq_or_lt_of_le m0 with h0 | h0
    · rw [← h0]
      have hf : ⌊(-1 : ℚ) * ((c t : ℚ) + 0)⌋ = -c t := by
        rw [Int.floor_eq_iff]; push_cast; constructor <;> linarith
      have hfr : Int.fract ((-1 : ℚ) * ((c t : ℚ) + 0)) = 0 := by
        unfold Int.fract; rw [hf]; push_cast; ring
      rw [hf, hfr, show -c t = -1 * (c t + 1) + 1 by ring, zpow_add_one₀ (by norm_num)]
      ring
    · have hf : ⌊(-1 : ℚ) * ((c t : ℚ) + m t)⌋ = -c t - 1 := by
        rw [Int.floor_eq_iff]; push_cast; constructor <;> linarith
      have hfr : Int.fract ((-1 : ℚ) * ((c t : ℚ) + m t)) = 1 - m t := by
        unfold Int.fract; rw [hf]; push_cast; ring
      rw [hf, hfr, show -1 * (c t + 1) = -c t - 1 by ring]
      ring

end Takum
