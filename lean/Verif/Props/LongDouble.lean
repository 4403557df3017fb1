import Verif.Lemmas.LongDouble

/-! # The encoders for the supported formats of `long double` (C54) -/

namespace Takum
open Spec

/-- The 32-bit (`big = false`) and the 64-bit encoder on a platform with the given `long double`. -/
def ldEncode (v : LD) : (big : Bool) → Bool → Fl → C (BitVec (if big then 64 else 32))
  | false => ldTakum32FromSAndL v
  | true => ldTakum64FromSAndL v

theorem ld_nearest {n : ℕ} (hn : 12 ≤ n) (s : Bool) {x : ℚ} (h1 : -255 ≤ x) (h2 : x < 255) :
    NearestEll s (sg s * x) (mkT n s (nearK n (psiInv x))) := by
  obtain ⟨u0, u16, hu⟩ := psiInv_spec h1 h2
  have := nearest_mkT (n := n) (by omega) s u0 u16
  rwa [hu] at this

theorem ld_bound (v : LD) : 254 ≤ v.fmt.rq (254.999999999999999777955395074968691915273666381835938 : ℚ) := by
  cases v <;> decide +kernel

theorem ld_spec {v : LD} (hv : v ≠ .d64) (big s : Bool) {l : Fl} {q : ℚ} (hl : l.Is q) (hq : |q| ≤ 254)
    {j : ℤ} (hj : q * 2 ^ 44 = j) :
    (1 / 2 ≤ Int.fract (sg s * q) → ldEncode v big s l = .error .shift) ∧
    (Int.fract (sg s * q) < 1 / 2 → ∃ t, ldEncode v big s l = .ok t ∧
      NearestEll s (sg s * (⌊sg s * q⌋ + 2 * Int.fract (sg s * q))) t) := by
  have hx : |sg s * q| ≤ 254 := by rw [sg_abs]; exact hq
  obtain ⟨x1, x2⟩ := abs_le.mp hx
  have m0 := Int.fract_nonneg (sg s * q)
  have hfx := Int.floor_add_fract (sg s * q)
  have hf : (-254 : ℚ) ≤ ⌊sg s * q⌋ := by
    exact_mod_cast (by rw [Int.le_floor]; push_cast; exact x1 : -254 ≤ ⌊sg s * q⌋)
  cases big
  · obtain ⟨a, b⟩ := ldGen_spec (n := 32) (by omega) hv (B := 254.99999904632568359375) (by norm_num) s hl hq hj
    exact ⟨a, fun h => ⟨_, b h, ld_nearest (by norm_num) s (by linarith) (by linarith)⟩⟩
  · obtain ⟨a, b⟩ := ldGen_spec (n := 64) (by omega) hv (ld_bound v) s hl hq hj
    exact ⟨a, fun h => ⟨_, b h, ld_nearest (by norm_num) s (by linarith) (by linarith)⟩⟩

theorem ld_is {F : Fmt} {l : Fl} (hl : l.In F) (f : l.isfinite = true) : l.Is l.toQ := by
  cases l with
  | nan => cases f
  | inf s => cases f
  | zero s => exact Fl.Is.zero s
  | num q => exact Fl.Is.num hl.1

/-- C54 where it holds.  With the 64-bit significand of x86-64 a number with at most 64 bits after the binary
point is encoded as the nearest takum; with the significands of 53 and 113 bits this is so for integers.  For
all formats NaN and the infinities are encoded as NaR and 0. -/
theorem long_double_partial (v : LD) (big s : Bool) :
    (∀ l : Fl, l.In v.fmt → l.isfinite = true →
      (v = .d64 → (∃ j : ℤ, l.toQ * 2 ^ 64 = j) → ∃ t, ldEncode v big s l = .ok t ∧ NearestEll s l.toQ t) ∧
      (|l.toQ| ≤ 254 → (∃ j : ℤ, l.toQ = j) → ∃ t, ldEncode v big s l = .ok t ∧ NearestEll s l.toQ t)) ∧
    ldEncode v big s .nan = .ok (nar _) ∧ ldEncode v big s (.inf false) = .ok (nar _) ∧
    ldEncode v big s (.inf true) = .ok 0#_ := by
  refine ⟨fun l hl f => ?_, by cases v <;> cases big <;> rfl, by cases v <;> cases big <;> rfl,
    by cases v <;> cases big <;> rfl⟩
  have h64 : v = .d64 → (∃ j : ℤ, l.toQ * 2 ^ 64 = j) → ∃ t, ldEncode v big s l = .ok t ∧ NearestEll s l.toQ t := by
    rintro rfl hj
    have hI := ld_is hl f
    have hr : x80.Rep l.toQ := by
      cases l with
      | nan => cases f
      | inf s => cases f
      | zero s => exact Fmt.Rep.zero _
      | num q => exact hl.2.1
    cases big
    · exact enc_nearest (w := .w32) s hI hr hj
    · exact enc_nearest (w := .w64) s hI hr hj
  refine ⟨h64, fun hq hj => ?_⟩
  obtain ⟨j, hj⟩ := hj
  by_cases hv : v = .d64
  · exact h64 hv ⟨j * 2 ^ 64, by rw [hj]; push_cast; ring⟩
  · obtain ⟨-, h⟩ := ld_spec hv big s (ld_is hl f) hq (j := j * 2 ^ 44) (by rw [hj]; push_cast; ring)
    have hx : sg s * l.toQ = (((if s then -1 else 1) * j : ℤ) : ℚ) := by
      rw [hj]; cases s <;> simp [sg]
    have hfr : Int.fract (sg s * l.toQ) = 0 := by rw [hx, Int.fract_intCast]
    have hfl : (⌊sg s * l.toQ⌋ : ℚ) = sg s * l.toQ := by rw [hx, Int.floor_intCast]
    rw [hfr, hfl, mul_zero, add_zero, sg_sq] at h
    exact h (by norm_num)

example : (Fl.num (-7)).In (LD.d113).fmt ∧ |(Fl.num (-7)).toQ| ≤ 254 ∧ (∃ j : ℤ, (Fl.num (-7)).toQ = j) ∧
    ldEncode .d113 false true (.num (-7)) = .ok 0xd8000000#32 :=
  ⟨⟨by norm_num, ⟨-7, 0, by norm_num, by decide, by decide⟩, by decide +kernel⟩, by decide +kernel, ⟨-7, by norm_num [Fl.toQ]⟩,
    by decide +kernel⟩

example : (Fl.num (3 / 8 : ℚ)).In (LD.d64).fmt ∧ (∃ j : ℤ, (Fl.num (3 / 8 : ℚ)).toQ * 2 ^ 64 = j) :=
  ⟨⟨by norm_num, ⟨3, -3, by norm_num, by decide, by decide⟩, by decide +kernel⟩, ⟨3 * 2 ^ 61, by norm_num [Fl.toQ]⟩⟩

/-- C54 is false for the significands of 53 and 113 bits, for every `l` that is not an integer (here: up to
254 with up to 44 bits after the binary point).  Let `(-1)^s l = c + m` with an integer `c` and `0 ≤ m < 1`.
If `m ≥ 1/2`, encoding shifts by a negative number of bits, which is undefined.  If `m < 1/2`, the result is the
takum nearest to `(-1)^s (c + 2 m)` instead of `l`. -/
theorem long_double_refuted (v : LD) (hv : v = .d53 ∨ v = .d113) (big s : Bool) (l : Fl) (hl : l.In v.fmt)
    (f : l.isfinite = true) (hq : |l.toQ| ≤ 254) (hg : ∃ j : ℤ, l.toQ * 2 ^ 44 = j) (c : ℤ) (m : ℚ)
    (hcm : (if s then -1 else 1) * l.toQ = c + m) (m0 : 0 ≤ m) (m1 : m < 1) :
    (1 / 2 ≤ m → ldEncode v big s l = .error .shift) ∧
    (m < 1 / 2 → ∃ t, ldEncode v big s l = .ok t ∧ NearestEll s ((if s then -1 else 1) * (c + 2 * m)) t) := by
  obtain ⟨j, hj⟩ := hg
  have h := ld_spec (v := v) (by rcases hv with rfl | rfl <;> decide) big s (ld_is hl f) hq hj
  have hs : sg s = (if s then -1 else 1 : ℚ) := rfl
  have hfl : ⌊sg s * l.toQ⌋ = c := by
    rw [hs, hcm, Int.floor_eq_iff]; constructor <;> linarith
  have hfr : Int.fract (sg s * l.toQ) = m := by
    unfold Int.fract; rw [hfl, hs, hcm]; ring
  rw [hfr, hfl, hs] at h
  exact h

/-- Instances: `√e^(1/2)` cannot be encoded, `√e^(1/4)` is encoded as `√e^(1/2)`, `-√e^(-5/4)` as
`-√e^(-3/2)`. -/
example : ldEncode .d53 false false (.num (1 / 2)) = .error .shift ∧
    ldEncode .d113 true false (.num (1 / 2)) = .error .shift ∧
    ldEncode .d53 false false (.num (1 / 4)) = .ok 0x44000000#32 ∧ ell 0x44000000#32 = 1 / 2 ∧
    ldEncode .d113 true true (.num (-5 / 4)) = .ok 0xca00000000000000#64 ∧
    ell 0xca00000000000000#64 = -3 / 2 := by decide +kernel

/-- A further defect with 53 bits: the constant `bound` of the 64-bit encoder is rounded to 255, so that the
clamping comes too late.  Numbers beyond the range are not saturated: too large ones become `√e^127`, too
small ones 0, large negative ones NaR, and tiny negative ones `-√e^(-127)`. -/
theorem long_double_saturation_refuted (q : ℚ) (h : 255 < q) :
    ldTakum64FromSAndL .d53 false (.num q) = .ok 0x7800000000000000#64 ∧ ell 0x7800000000000000#64 = 127 ∧
    ldTakum64FromSAndL .d53 true (.num q) = .ok (nar 64) ∧
    ldTakum64FromSAndL .d53 false (.num (-q)) = .ok 0#64 ∧
    ldTakum64FromSAndL .d53 true (.num (-q)) = .ok 0xf800000000000000#64 ∧ ell 0xf800000000000000#64 = -127 := by
  have hb : LD.d53.fmt.rq (254.999999999999999777955395074968691915273666381835938 : ℚ) = 255 := by decide +kernel
  have e1 : ∀ s, ldTakum64FromSAndL .d53 s (.num q) = ldTakum64FromSAndL .d53 s (.num 300) := by
    intro s
    unfold ldTakum64FromSAndL fromSAndLGen
    rw [hb]
    have a1 : Fl.lt (.num q) (Fl.num 255).neg = false := by
      exact decide_eq_false (by show ¬ q < -255; linarith)
    have a2 : Fl.lt (.num 255) (.num q) = true := by
      exact decide_eq_true h
    have a3 : Fl.lt (.num 300) (Fl.num 255).neg = false := by decide +kernel
    have a4 : Fl.lt (.num 255) (.num 300) = true := by decide +kernel
    simp only [a1, a2, a3, a4]; rfl
  have e2 : ∀ s, ldTakum64FromSAndL .d53 s (.num (-q)) = ldTakum64FromSAndL .d53 s (.num (-300)) := by
    intro s
    unfold ldTakum64FromSAndL fromSAndLGen
    rw [hb]
    have a1 : Fl.lt (.num (-q)) (Fl.num 255).neg = true := by
      exact decide_eq_true (by show -q < -255; linarith)
    have a3 : Fl.lt (.num (-300)) (Fl.num 255).neg = true := by decide +kernel
    simp only [a1, a3]; rfl
  rw [e1, e1, e2, e2]
  decide +kernel

example : (255 : ℚ) < 300 := by norm_num

end Takum
