import Verif.Lemmas.EncodeCor
import Verif.Lemmas.Order
import Verif.Props.Widths

/-! # Distance between neighbouring takums, and encoding of an approximate `ℓ` -/

namespace Takum
open Spec

theorem bias_bounds : ∀ d < 16, -(2 ^ (rr d + 1) - 1) ≤ bias d ∧ bias d + 2 ^ rr d ≤ 2 ^ (rr d + 1) - 1 := by decide

theorem psi_step {V k : ℕ} (hV : 0 < V) (hk : k + 1 < 16 * V) :
    ∃ r : ℕ, psi ((k + 1 : ℚ) / V) - psi ((k : ℚ) / V) = 2 ^ r / V ∧
      |psi ((k : ℚ) / V)| ≤ 2 ^ (r + 1) - 1 ∧ |psi ((k + 1 : ℚ) / V)| ≤ 2 ^ (r + 1) - 1 := by
  have hVq : (0 : ℚ) < (V : ℚ) := by exact_mod_cast hV
  set d := k / V with hd
  have d1 : d * V ≤ k := Nat.div_mul_le_self _ _
  have d2 : k < (d + 1) * V := by
    have := Nat.lt_div_mul_add (a := k) (b := V) hV
    rw [add_mul, one_mul]; exact this
  have d16 : d < 16 := by
    by_contra h
    have : 16 * V ≤ d * V := Nat.mul_le_mul_right _ (by omega)
    omega
  have a1 : (d : ℚ) ≤ (k : ℚ) / V := by rw [le_div_iff₀ hVq]; exact_mod_cast d1
  have a2 : (k + 1 : ℚ) / V ≤ d + 1 := by rw [div_le_iff₀ hVq]; exact_mod_cast d2
  have a3 : (k : ℚ) / V < (k + 1 : ℚ) / V := by
    apply div_lt_div_of_pos_right _ hVq; linarith
  have e1 : psi ((k : ℚ) / V) = piece d ((k : ℚ) / V) := psi_eq_piece a1 (by linarith)
  have e2 : psi ((k + 1 : ℚ) / V) = piece d ((k + 1 : ℚ) / V) := by
    by_cases hd15 : d < 15
    · exact psi_eq_piece' hd15 (by linarith) a2
    · apply psi_eq_piece (by linarith)
      rw [div_lt_iff₀ hVq]
      have : d = 15 := by omega
      rw [this]
      exact_mod_cast (by omega : k + 1 < (15 + 1) * V)
  obtain ⟨b1, b2⟩ := bias_bounds d d16
  have b1' : (-(2 ^ (rr d + 1) - 1) : ℚ) ≤ bias d := by exact_mod_cast b1
  have b2' : (bias d + 2 ^ rr d : ℚ) ≤ 2 ^ (rr d + 1) - 1 := by exact_mod_cast b2
  have pd : (0 : ℚ) < 2 ^ rr d := by positivity
  have key : ∀ u : ℚ, d ≤ u → u ≤ d + 1 → |piece d u| ≤ 2 ^ (rr d + 1) - 1 := by
    intro u h1 h2
    unfold piece
    rw [abs_le]
    constructor <;> nlinarith
  refine ⟨rr d, ?_, ?_, ?_⟩
  · rw [e1, e2]; unfold piece; field_simp; ring
  · rw [e1]; exact key _ a1 (by linarith)
  · rw [e2]; exact key _ (by linarith) a2

/-- Two takums of the same sign differ by at least this much. -/
theorem ell_gap {w : W} {a b : T w} (hs : a.msb = b.msb) (h : a ≠ b) :
    max 1 ((|ell a| + 1) / 2) / 2 ^ (w.n - 5) ≤ |ell b - ell a| := by
  have h8 := w.n_pos
  have h5 : 5 ≤ w.n := by omega
  have hV : 0 < 2 ^ (w.n - 5) := by positivity
  have hl : low a ≠ low b := by
    intro e; apply h
    have := toNat_eq (by omega : 1 ≤ w.n) a
    have h2 := toNat_eq (by omega : 1 ≤ w.n) b
    rw [hs, e] at this
    exact BitVec.eq_of_toNat_eq (by rw [this, h2])
  have la := low_lt16 h5 a
  have lb := low_lt16 h5 b
  have e : |ell b - ell a| = |psi (pos b) - psi (pos a)| := by
    rw [ell_sg h5, ell_sg h5 a, hs, ← mul_sub, sg_abs]
  rw [e, ell_sg h5, sg_abs]
  have hm : ∀ i j : ℕ, i ≤ j → j < 16 * 2 ^ (w.n - 5) →
      psi ((i : ℚ) / ((2 ^ (w.n - 5) : ℕ) : ℚ)) ≤ psi ((j : ℚ) / ((2 ^ (w.n - 5) : ℕ) : ℚ)) := by
    intro i j hij hj
    apply psi_mono (by positivity)
    · apply div_le_div_of_nonneg_right _ (by positivity); exact_mod_cast hij
    · rw [div_lt_iff₀ (by positivity)]; exact_mod_cast hj
  have fin : ∀ (r : ℕ) (x : ℚ), |x| ≤ 2 ^ (r + 1) - 1 →
      max 1 ((|x| + 1) / 2) / 2 ^ (w.n - 5) ≤ 2 ^ r / ((2 ^ (w.n - 5) : ℕ) : ℚ) := by
    intro r x hx
    push_cast
    apply div_le_div_of_nonneg_right _ (by positivity)
    apply max_le
    · exact one_le_pow₀ (by norm_num)
    · rw [pow_succ] at hx; linarith
  unfold pos
  rcases lt_or_gt_of_ne hl with h1 | h1
  · obtain ⟨r, s1, s2, s3⟩ := psi_step hV (k := low a) (by omega)
    have := hm (low a + 1) (low b) h1 lb
    push_cast at this
    refine (fin r _ s2).trans (le_trans ?_ (le_abs_self _))
    rw [← s1]; push_cast; linarith
  · obtain ⟨r, s1, s2, s3⟩ := psi_step hV (k := low a - 1) (by omega)
    have e1 : ((low a - 1 : ℕ) : ℚ) + 1 = low a := by
      rw [Nat.cast_sub (by omega)]; simp
    rw [e1] at s1 s3
    have := hm (low b) (low a - 1) (by omega) (by omega)
    refine (fin r _ s3).trans (le_trans ?_ (neg_le_abs _))
    rw [← s1]; linarith

/-- Every float is between two representable points of the grid `2^-g`. -/
theorem grid_bracket {F : Fmt} {g : ℕ} (hp : 1 ≤ F.prec) (hg : g ≤ F.prec) (he : F.emin ≤ -g) {q : ℚ} (hq : F.Rep q) :
    ∃ g₁ g₂ : ℚ, g₁ ≤ q ∧ q ≤ g₂ ∧ |g₁ - q| ≤ 1 / 2 ^ g ∧ |g₂ - q| ≤ 1 / 2 ^ g ∧ F.Rep g₁ ∧ F.Rep g₂ ∧
      (∃ j : ℤ, g₁ * 2 ^ g = j) ∧ ∃ j : ℤ, g₂ * 2 ^ g = j := by
  have hgp : (0 : ℚ) < 2 ^ g := by positivity
  by_cases h : ∃ j : ℤ, q * 2 ^ g = j
  · exact ⟨q, q, le_refl _, le_refl _, by simp, by simp, hq, hq, h, h⟩
  have hsmall : |q * 2 ^ g| < 2 ^ F.prec := by
    obtain ⟨m, e, rfl, hm, he'⟩ := hq
    have heg : e < -g := by
      by_contra hc
      apply h
      obtain ⟨j, rfl⟩ : ∃ j : ℕ, e = -g + j := ⟨(e + g).toNat, by omega⟩
      refine ⟨m * 2 ^ j, ?_⟩
      rw [zpow_add₀ (by norm_num), zpow_neg, zpow_natCast, zpow_natCast]; push_cast; field_simp
    have h2 : |(m : ℚ)| < 2 ^ F.prec := by exact_mod_cast hm
    have h3 : (2 : ℚ) ^ e * 2 ^ g ≤ 1 := by
      rw [← zpow_natCast, ← zpow_add₀ (by norm_num)]
      exact zpow_le_one_of_nonpos₀ (by norm_num) (by omega)
    rw [mul_assoc, abs_mul, abs_of_pos (show (0 : ℚ) < 2 ^ e * 2 ^ g by positivity)]
    calc |(m : ℚ)| * (2 ^ e * 2 ^ g) ≤ |(m : ℚ)| * 1 := by gcongr
      _ < _ := by rw [mul_one]; exact h2
  have f1 := Int.floor_le (q * 2 ^ g)
  have f2 := Int.le_ceil (q * 2 ^ g)
  have f3 := Int.lt_floor_add_one (q * 2 ^ g)
  have f4 := Int.ceil_lt_add_one (q * 2 ^ g)
  rw [abs_lt] at hsmall
  have b1 : |⌊q * 2 ^ g⌋| ≤ 2 ^ F.prec := by
    rw [abs_le]
    constructor
    · apply Int.le_floor.mpr; push_cast; linarith [hsmall.1]
    · have : (⌊q * 2 ^ g⌋ : ℚ) < 2 ^ F.prec := by linarith [hsmall.2]
      exact_mod_cast this.le
  have b2 : |⌈q * 2 ^ g⌉| ≤ 2 ^ F.prec := by
    rw [abs_le]
    constructor
    · have : (-2 ^ F.prec : ℚ) < ⌈q * 2 ^ g⌉ := by linarith [hsmall.1]
      exact_mod_cast this.le
    · apply Int.ceil_le.mpr; push_cast; linarith [hsmall.2]
  have hrep : ∀ k : ℤ, |k| ≤ 2 ^ F.prec → F.Rep ((k : ℚ) / 2 ^ g) := by
    intro k hk
    have eg : ∀ x : ℚ, x / 2 ^ g = x * (2 : ℚ) ^ (-g : ℤ) := by intro x; rw [zpow_neg, zpow_natCast]; rfl
    rcases lt_or_eq_of_le hk with h1 | h1
    · exact ⟨k, -g, eg _, h1, he⟩
    · have e2 : ((2 : ℚ) ^ F.prec) / 2 ^ g = (2 : ℚ) ^ ((F.prec : ℤ) - g) := by
        rw [zpow_sub₀ (by norm_num), zpow_natCast, zpow_natCast]
      have hz : F.Rep ((2 : ℚ) ^ ((F.prec : ℤ) - g)) := Fmt.Rep.zpow hp (by omega)
      rcases (abs_eq (by positivity)).mp h1 with h2 | h2
      · rw [h2]; push_cast; rw [e2]; exact hz
      · rw [h2]; push_cast; rw [neg_div, e2]; exact hz.neg
  refine ⟨⌊q * 2 ^ g⌋ / 2 ^ g, ⌈q * 2 ^ g⌉ / 2 ^ g, ?_, ?_, ?_, ?_, hrep _ b1, hrep _ b2,
    ⟨⌊q * 2 ^ g⌋, by field_simp⟩, ⟨⌈q * 2 ^ g⌉, by field_simp⟩⟩
  · rw [div_le_iff₀ hgp]; exact f1
  · rw [le_div_iff₀ hgp]; exact f2
  · rw [abs_le]; constructor
    · rw [neg_le_sub_iff_le_add, ← add_div, le_div_iff₀ hgp]; linarith
    · rw [sub_le_iff_le_add, div_le_iff₀ hgp, add_mul, one_div, inv_mul_cancel₀ hgp.ne']; linarith
  · rw [abs_le]; constructor
    · rw [neg_le_sub_iff_le_add, ← add_div, le_div_iff₀ hgp]; linarith
    · rw [sub_le_iff_le_add, div_le_iff₀ hgp, add_mul, one_div, inv_mul_cancel₀ hgp.ne']; linarith

theorem enc_ell_mono {w : W} {s : Bool} {x y : ℚ} {l l' : Fl} {t t' : T w} (hx : l.Is x) (hy : l'.Is y)
    (rx : w.encF.Rep x) (ry : w.encF.Rep y) (hxy : x ≤ y) (et : fromSAndL w s l = .ok t)
    (et' : fromSAndL w s l' = .ok t') (S : t.msb = s) (S' : t'.msb = s) : ell t ≤ ell t' := by
  have h8 := w.n_pos
  cases s
  · obtain ⟨u, u', f1, f2, f3⟩ := enc_mono (w := w) false hx hy rx ry (by simpa [sg] using hxy)
    rw [et] at f1; rw [et'] at f2
    obtain rfl := Except.ok.inj f1; obtain rfl := Except.ok.inj f2
    by_contra hc
    exact absurd ((ell_lt_iff_pos (by omega) S' S).mp (not_le.mp hc)) (by omega)
  · obtain ⟨u, u', f1, f2, f3⟩ := enc_mono (w := w) true hy hx ry rx (by simpa [sg] using hxy)
    rw [et] at f2; rw [et'] at f1
    obtain rfl := Except.ok.inj f1; obtain rfl := Except.ok.inj f2
    by_contra hc
    exact absurd ((ell_lt_iff_neg (by omega) S' S).mp (not_le.mp hc)) (by omega)

/-- The encoder is off the nearest takum by at most the bits below its grid. -/
theorem enc_almost {w : W} (s : Bool) {l : Fl} {q : ℚ} (hl : l.Is q) (hq : w.encF.Rep q) :
    ∃ v : T w, fromSAndL w s l = .ok v ∧ Regular v ∧ v.msb = s ∧
      ∀ e : T w, Regular e → e.msb = s → |ell v - q| ≤ |ell e - q| + 2 / 2 ^ w.grid := by
  have hg : 1 ≤ w.encF.prec ∧ w.grid ≤ w.encF.prec ∧ w.encF.emin ≤ -w.grid := by cases w <;> decide
  obtain ⟨g₁, g₂, a1, a2, d1, d2, r1, r2, n1, n2⟩ := grid_bracket hg.1 hg.2.1 hg.2.2 hq
  obtain ⟨v1, e1, R1, s1, k1⟩ := enc_nearest (w := w) s (Fl.Is.mk false g₁) r1 n1
  obtain ⟨v2, e2, R2, s2, k2⟩ := enc_nearest (w := w) s (Fl.Is.mk false g₂) r2 n2
  obtain ⟨v, ev, rv, sv⟩ := enc_regular (w := w) s hl hq
  refine ⟨v, ev, rv, sv, fun e he hs => ?_⟩
  have m1 := enc_ell_mono (Fl.Is.mk false g₁) hl r1 hq a1 e1 ev s1 sv
  have m2 := enc_ell_mono hl (Fl.Is.mk false g₂) hq r2 a2 ev e2 sv s2
  have h1 : |ell v1 - g₁| ≤ |ell e - g₁| := by
    rcases k1 e he hs with h | h
    · exact h.le
    · exact h.1.le
  have h2 : |ell v2 - g₂| ≤ |ell e - g₂| := by
    rcases k2 e he hs with h | h
    · exact h.le
    · exact h.1.le
  have t1 := abs_sub_le (ell e) q g₁
  have t2 := abs_sub_le (ell e) q g₂
  rw [abs_sub_comm q] at t1 t2
  have e2 : (2 : ℚ) / 2 ^ w.grid = 1 / 2 ^ w.grid + 1 / 2 ^ w.grid := by ring
  rw [e2]
  rw [abs_le]
  have b1 := neg_abs_le (ell v1 - g₁)
  have b2 := le_abs_self (ell v2 - g₂)
  have c1 := neg_abs_le (g₁ - q)
  have c2 := le_abs_self (g₂ - q)
  constructor <;> linarith

/-- Encoding an approximation `q` of `ell e` gives a takum close to `e`. -/
theorem enc_near_ell {w : W} (hw : w = .w32 ∨ w = .w64) {e : T w} (he : Regular e) {l : Fl} {q η : ℚ} (hl : l.Is q)
    (hq : x80.Rep q) (hη : |q - ell e| ≤ η) :
    ∃ v : T w, fromSAndL w e.msb l = .ok v ∧ Regular v ∧ v.msb = e.msb ∧ |ell v - ell e| ≤ 2 * (η + 1 / 2 ^ 64) := by
  have hF : w.encF = x80 := by rcases hw with rfl | rfl <;> rfl
  have hG : w.grid = 64 := by rcases hw with rfl | rfl <;> rfl
  obtain ⟨v, ev, rv, sv, h⟩ := enc_almost (w := w) e.msb hl (by rw [hF]; exact hq)
  refine ⟨v, ev, rv, sv, ?_⟩
  have h1 := h e he rfl
  rw [hG, abs_sub_comm (ell e)] at h1
  have h3 := abs_sub_le (ell v) q (ell e)
  linarith

/-- The same through 64 bits. -/
theorem enc_reduce_close {w : W} (hw : w.n < 64) {t : T w} (ht : Regular t) {l : Fl} {q η : ℚ} (hl : l.Is q)
    (hq : x80.Rep q) (hη : |q - ell t| ≤ η) :
    ∃ v : T w, (do reduce .w64 w (← fromSAndL .w64 t.msb l)) = .ok v ∧ Regular v ∧ v.msb = t.msb ∧
      |ell v - ell t| ≤ 4 * (η + 1 / 2 ^ 64) := by
  have h8 := w.n_pos
  obtain ⟨e, ee, es, el⟩ := expand_spec (a := w) (b := .w64) hw t
  have ell_e : ell e = ell t := by
    rw [ell_sg (by decide), ell_sg (by omega), es, expand_pos (a := w) (b := .w64) hw el]
  have re : Regular e := by
    obtain ⟨v, ev, -, -, v1, v2⟩ := widen_exact (a := w) (b := .w64) hw t
    rw [ee] at ev; obtain rfl := Except.ok.inj ev
    exact ⟨fun h => ht.1 (v2.mp h), fun h => ht.2 (v1.mp h)⟩
  obtain ⟨u, eu, ru, su, ku⟩ := enc_near_ell (w := .w64) (Or.inr rfl) re (η := η) hl hq (by rw [ell_e]; exact hη)
  obtain ⟨v, ev, ⟨rv, sv, nv⟩, -⟩ := narrow_nearest (a := .w64) (b := w) hw u ru
  rw [← es, eu, ok_bind]
  refine ⟨v, ev, rv, by rw [sv, su], ?_⟩
  have h1 : |ell v - ell u| ≤ |ell t - ell u| := by
    rcases nv t ht (by rw [su, es]) with h | h
    · exact h.le
    · exact h.1.le
  rw [ell_e] at ku
  have h3 := abs_sub_le (ell v) (ell u) (ell t)
  rw [abs_sub_comm (ell t)] at h1
  linarith

end Takum
