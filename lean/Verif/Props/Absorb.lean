import Verif.Props.SumPrecision
import Verif.Props.Counting

/-!
# C149: what is lost when it is added to 1
-/

namespace Takum
open Spec

theorem add_interval {w : W} {a lo hi : T w} (na : a ≠ nar w.n) (nl : lo ≠ nar w.n) (nh : hi ≠ nar w.n) (nl' : lo - 1 ≠ nar w.n) (nh' : hi + 1 ≠ nar w.n)
    (h1 : linAddition w a lo = .ok a) (h2 : linAddition w a hi = .ok a) (h3 : linAddition w a (lo - 1) ≠ .ok a) (h4 : linAddition w a (hi + 1) ≠ .ok a)
    (e1 : (lo - 1).toInt = lo.toInt - 1) (e2 : (hi + 1).toInt = hi.toInt + 1) {x : T w} (nx : x ≠ nar w.n) :
    linAddition w a x = .ok a ↔ lo.toInt ≤ x.toInt ∧ x.toInt ≤ hi.toInt := by
  constructor
  · intro h
    by_contra hc
    rcases Classical.or_iff_not_imp_left.mpr (fun h' : ¬ lo.toInt > x.toInt => (not_and.mp hc) (not_lt.mp h')) with hc | hc
    · obtain ⟨u, v, i1, i2, o1⟩ := add_ordered na nx na nl' le_rfl (by rw [e1]; omega)
      obtain ⟨u', v', i3, i4, o2⟩ := add_ordered na nl' na nl le_rfl (by rw [e1]; omega)
      rw [h] at i1
      rw [i2] at i3
      rw [h1] at i4
      cases i1
      cases i3
      cases i4
      rw [BitVec.toInt_inj.mp (le_antisymm o2 o1)] at i2
      exact h3 i2
    · rw [not_le] at hc
      obtain ⟨u, v, i1, i2, o1⟩ := add_ordered na nh' na nx le_rfl (by rw [e2]; omega)
      obtain ⟨u', v', i3, i4, o2⟩ := add_ordered na nh na nh' le_rfl (by rw [e2]; omega)
      rw [h] at i2
      rw [i1] at i4
      rw [h2] at i3
      cases i2
      cases i3
      cases i4
      rw [BitVec.toInt_inj.mp (le_antisymm o1 o2)] at i1
      exact h4 i1
  · rintro ⟨l, h⟩
    obtain ⟨u, v, i1, i2, o1⟩ := add_ordered na nl na nx le_rfl l
    obtain ⟨u', v', i3, i4, o2⟩ := add_ordered na nx na nh le_rfl h
    rw [h1] at i1
    rw [i2] at i3
    rw [h2] at i4
    cases i1
    cases i3
    cases i4
    rw [i2, BitVec.toInt_inj.mp (le_antisymm o2 o1)]

/-- The largest and the smallest number that are lost. -/
def lostHi : (w : W) → T w
  | .w8 => 46#8
  | .w16 => 8960#16
  | .w32 => 427819008#32
  | .w64 => 1208090600042135552#64
def lostLo : (w : W) → T w
  | .w8 => -44#8
  | .w16 => -8704#16
  | .w32 => -419430400#32
  | .w64 => -1190076201532653568#64

/-- 1 for the types whose sums are rounded once, 17/16 for 64 bits. -/
def lostSlack : W → ℚ
  | .w64 => 17 / 16
  | _ => 1

theorem lost_facts (w : W) : linAddition w (ONE w) (lostLo w) = .ok (ONE w) ∧ linAddition w (ONE w) (lostHi w) = .ok (ONE w) ∧
    linAddition w (ONE w) (lostLo w - 1) ≠ .ok (ONE w) ∧ linAddition w (ONE w) (lostHi w + 1) ≠ .ok (ONE w) ∧
    (lostLo w - 1).toInt = (lostLo w).toInt - 1 ∧ (lostHi w + 1).toInt = (lostHi w).toInt + 1 := by
  cases w <;> decide +kernel
theorem lost_ne (w : W) : ONE w ≠ nar w.n ∧ lostLo w ≠ nar w.n ∧ lostHi w ≠ nar w.n ∧ lostLo w - 1 ≠ nar w.n ∧ lostHi w + 1 ≠ nar w.n := by
  cases w <;> decide
theorem lost_values (w : W) : linVal (lostLo w) = some (-(lostSlack w * (2 : ℚ) ^ (-(w.n - 3 : ℕ) : ℤ))) ∧
    linVal (lostHi w) = some (lostSlack w * (2 : ℚ) ^ (-(w.n - 4 : ℕ) : ℤ)) := by
  cases w <;> decide +kernel

theorem one_absorbs (w : W) (x : T w) (v : ℚ) (hv : linVal x = some v) :
    linAddition w (ONE w) x = .ok (ONE w) ↔
      -(lostSlack w * (2 : ℚ) ^ (-(w.n - 3 : ℕ) : ℤ)) ≤ v ∧ v ≤ lostSlack w * (2 : ℚ) ^ (-(w.n - 4 : ℕ) : ℤ) := by
  obtain ⟨f1, f2, f3, f4, f5, f6⟩ := lost_facts w
  obtain ⟨n1, n2, n3, n4, n5⟩ := lost_ne w
  have nx : x ≠ nar w.n := by
    rintro rfl
    simp [linVal] at hv
  rw [add_interval n1 n2 n3 n4 n5 f1 f2 f3 f4 f5 f6 nx, linVal_order (lost_values w).1 hv, linVal_order hv (lost_values w).2]

/-- C149, for 8, 16 and 32 bits: `1 + x = 1` exactly if `x` is at most half of the distance to the neighbour of 1 on its side: the takum above 1 is
`1 + 2^-(n-5)`, the one below `1 - 2^-(n-4)`. -/
theorem one_absorbs_partial (w : W) (hw : w ≠ .w64) (x : T w) (v : ℚ) (hv : linVal x = some v) :
    linAddition w (ONE w) x = .ok (ONE w) ↔ -((2 : ℚ) ^ (-(w.n - 3 : ℕ) : ℤ)) ≤ v ∧ v ≤ (2 : ℚ) ^ (-(w.n - 4 : ℕ) : ℤ) := by
  have h : lostSlack w = 1 := by
    cases w
    · rfl
    · rfl
    · rfl
    · exact absurd rfl hw
  rw [one_absorbs w x v hv, h, one_mul, one_mul]

/-- C149 for 64 bits: the sum is rounded to 64 significant bits first, so that up to 1/16 more is lost. -/
theorem one_absorbs_64 (x : T .w64) (v : ℚ) (hv : linVal x = some v) :
    linAddition .w64 (ONE .w64) x = .ok (ONE .w64) ↔ -(17 / 16 * (2 : ℚ) ^ (-61 : ℤ)) ≤ v ∧ v ≤ 17 / 16 * (2 : ℚ) ^ (-60 : ℤ) :=
  one_absorbs .w64 x v hv

theorem one_absorbs_refuted : ∃ (x : T .w64) (v : ℚ), linVal x = some v ∧ (2 : ℚ) ^ (-60 : ℤ) < v ∧ linAddition .w64 (ONE .w64) x = .ok (ONE .w64) :=
  ⟨lostHi .w64, _, (lost_values .w64).2, by decide +kernel, (lost_facts .w64).2.1⟩

/-- C149: the loop that halves `x = 1` while `1 + x` differs from 1 ends at `2^-(n-4)` in every width: the last `x` that counts is `2^-p`, where `p` is the
precision of 1. -/
theorem epsilon_loop (w : W) (k : ℕ) (x : T w) (hx : linVal x = some ((2 : ℚ) ^ (-(k : ℤ)))) (p : ℕ) (hp : precision w (ONE w) = .ok p) :
    linAddition w (ONE w) x = .ok (ONE w) ↔ p < k := by
  have h8 := w.n_pos
  have hp' : precision w (ONE w) = .ok (w.n - 5) := by cases w <;> decide +kernel
  rw [hp'] at hp
  cases hp
  rw [one_absorbs w x _ hx]
  have pz : ∀ e : ℤ, (0 : ℚ) < (2 : ℚ) ^ e := fun e => zpow_pos (by norm_num) _
  have s1 : 1 ≤ lostSlack w ∧ lostSlack w < 2 := by cases w <;> decide +kernel
  constructor
  · rintro ⟨-, h⟩
    have : (2 : ℚ) ^ (-(k : ℤ)) < (2 : ℚ) ^ (-(w.n - 4 : ℕ) + 1 : ℤ) := by
      rw [zpow_add_one₀ (by norm_num)]
      nlinarith [pz (-(w.n - 4 : ℕ) : ℤ)]
    have := (zpow_lt_zpow_iff_right₀ (by norm_num : (1 : ℚ) < 2)).mp this
    omega
  · intro h
    constructor
    · have := pz (-(k : ℤ))
      have := mul_nonneg (by linarith : (0 : ℚ) ≤ lostSlack w) (pz (-(w.n - 3 : ℕ) : ℤ)).le
      linarith
    · have : (2 : ℚ) ^ (-(k : ℤ)) ≤ (2 : ℚ) ^ (-(w.n - 4 : ℕ) : ℤ) := zpow_le_zpow_right₀ (by norm_num) (by omega)
      nlinarith [pz (-(w.n - 4 : ℕ) : ℤ)]

/-- Non-vacuity: with 16 bits `1 + 2^-12 = 1`, but `1 + 2^-11` is not 1. -/
example : linVal (8960#16 : T .w16) = some ((2 : ℚ) ^ (-12 : ℤ)) ∧ linAddition .w16 (ONE .w16) 8960#16 = .ok (ONE .w16) ∧
    linVal (0x2400#16 : T .w16) = some ((2 : ℚ) ^ (-11 : ℤ)) ∧ linAddition .w16 (ONE .w16) 0x2400#16 ≠ .ok (ONE .w16) := by
  have h1 : linVal (8960#16 : T .w16) = some ((2 : ℚ) ^ (-12 : ℤ)) := by decide +kernel
  have h2 : linVal (0x2400#16 : T .w16) = some ((2 : ℚ) ^ (-11 : ℤ)) := by decide +kernel
  exact ⟨h1, (epsilon_loop .w16 12 _ h1 11 (by decide +kernel)).mpr (by decide), h2, (epsilon_loop .w16 11 _ h2 11 (by decide +kernel)).not.mpr (by decide)⟩

end Takum
