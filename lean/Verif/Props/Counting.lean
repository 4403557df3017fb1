import Verif.Props.Integers
import Verif.Props.Iterate

/-!
# C148: counting in linear takums
-/

namespace Takum
open Spec

/-- The takum of the last number that counting reaches. -/
def countEnd : (w : W) → T w
  | .w8 => 0x50#8
  | .w16 => 0x5a00#16
  | .w32 => 0x64800000#32
  | .w64 => 0x6e00000000000000#64

theorem countEnd_facts (w : W) : linVal (countEnd w) = some ((2 ^ intBits w : ℤ) : ℚ) ∧ linAddition w (countEnd w) (ONE w) = .ok (countEnd w) ∧
    linVal (-countEnd w) = some ((-2 ^ intBits w : ℤ) : ℚ) ∧ linSubtraction w (-countEnd w) (ONE w) = .ok (-countEnd w) ∧
    linVal (ONE w) = some ((1 : ℤ) : ℚ) := by
  cases w <;> decide +kernel

theorem linVal_inj {w : W} {a b : T w} {x : ℚ} (ha : linVal a = some x) (hb : linVal b = some x) : a = b :=
  BitVec.toInt_inj.mp (le_antisymm ((linVal_order ha hb).mpr le_rfl) ((linVal_order hb ha).mpr le_rfl))

/-- C148: after `k` additions of 1 an integer `i` has become `i + k`, but no more than `2^3`, `2^9`, `2^24`, `2^55` (for 8, 16, 32, 64 bits), where it
stays. -/
theorem lin_counting (w : W) : ∀ (k : ℕ) (a : T w) (i : ℤ), linVal a = some (i : ℚ) → |i| ≤ 2 ^ intBits w →
    ∃ s : T w, iterC (fun t => linAddition w t (ONE w)) k a = .ok s ∧ linVal s = some ((min (i + k) (2 ^ intBits w) : ℤ) : ℚ)
  | 0, a, i, ha, hi => ⟨a, rfl, by rw [Nat.cast_zero, add_zero, min_eq_left (abs_le.mp hi).2]; exact ha⟩
  | k + 1, a, i, ha, hi => by
    obtain ⟨f1, f2, -, -, f5⟩ := countEnd_facts w
    by_cases h : i = 2 ^ intBits w
    · subst h
      obtain rfl := linVal_inj ha f1
      exact ⟨_, iterC_fix f2 _, by rw [min_eq_right (by omega)]; exact f1⟩
    · have hi' := abs_le.mp hi
      have hb : |i + 1| ≤ 2 ^ intBits w := abs_le.mpr ⟨by omega, by omega⟩
      obtain ⟨b, e, hv⟩ := (lin_integer_arithmetic w a (ONE w) i 1 ha f5).1 hb
      rw [iterC_succ (f := fun t => linAddition w t (ONE w)) e]
      obtain ⟨s, e', hs⟩ := lin_counting w k b (i + 1) hv hb
      exact ⟨s, e', by rw [hs]; push_cast; ring_nf⟩

/-- C148: the same downwards. -/
theorem lin_counting_down (w : W) : ∀ (k : ℕ) (a : T w) (i : ℤ), linVal a = some (i : ℚ) → |i| ≤ 2 ^ intBits w →
    ∃ s : T w, iterC (fun t => linSubtraction w t (ONE w)) k a = .ok s ∧ linVal s = some ((max (i - k) (-2 ^ intBits w) : ℤ) : ℚ)
  | 0, a, i, ha, hi => ⟨a, rfl, by rw [Nat.cast_zero, sub_zero, max_eq_left (abs_le.mp hi).1]; exact ha⟩
  | k + 1, a, i, ha, hi => by
    obtain ⟨-, -, f1, f2, f5⟩ := countEnd_facts w
    by_cases h : i = -2 ^ intBits w
    · subst h
      obtain rfl := linVal_inj ha f1
      exact ⟨_, iterC_fix f2 _, by rw [max_eq_right (by omega)]; exact f1⟩
    · have hi' := abs_le.mp hi
      have hb : |i - 1| ≤ 2 ^ intBits w := abs_le.mpr ⟨by omega, by omega⟩
      obtain ⟨b, e, hv⟩ := (lin_integer_arithmetic w a (ONE w) i 1 ha f5).2.1 hb
      rw [iterC_succ (f := fun t => linSubtraction w t (ONE w)) e]
      obtain ⟨s, e', hs⟩ := lin_counting_down w k b (i - 1) hv hb
      exact ⟨s, e', by rw [hs]; push_cast; ring_nf⟩

/-- C148: a loop that counts from 0 until it reaches `N` ends if and only if `N` is not beyond the bound. -/
theorem lin_counting_loop (w : W) (N : ℕ) :
    (∃ k, ∃ s : T w, iterC (fun t => linAddition w t (ONE w)) k 0#w.n = .ok s ∧ linVal s = some (N : ℚ)) ↔ N ≤ 2 ^ intBits w := by
  have z : linVal (0#w.n : T w) = some ((0 : ℤ) : ℚ) := by rw [linVal_qv (by cases w <;> decide), qv_zero]; rfl
  constructor
  · rintro ⟨k, s, e, hs⟩
    obtain ⟨s', e', hs'⟩ := lin_counting w k _ 0 z (by rw [abs_zero]; positivity)
    rw [e] at e'
    cases e'
    rw [hs, Option.some.injEq] at hs'
    have : (N : ℤ) = min (0 + (k : ℤ)) (2 ^ intBits w) := Rat.intCast_injective (by rw [← hs']; simp)
    have h := min_le_right ((0 : ℤ) + k) (2 ^ intBits w)
    have : (N : ℤ) ≤ 2 ^ intBits w := this.le.trans h
    exact_mod_cast this
  · intro h
    obtain ⟨s, e, hs⟩ := lin_counting w N _ 0 z (by rw [abs_zero]; positivity)
    refine ⟨N, s, e, ?_⟩
    rw [min_eq_left (by rw [zero_add]; exact_mod_cast h), zero_add] at hs
    exact_mod_cast hs

/-- Non-vacuity: with 16 bits counting from 0 reaches 512 and no more. -/
example : ∃ s : T .w16, iterC (fun t => linAddition .w16 t (ONE .w16)) 1000000 0#16 = .ok s ∧ linVal s = some ((min (0 + (1000000 : ℕ)) (2 ^ 9) : ℤ) : ℚ) :=
  lin_counting .w16 1000000 0#16 0 (by decide +kernel) (by decide)
example : ¬ ∃ k, ∃ s : T .w16, iterC (fun t => linAddition .w16 t (ONE .w16)) k 0#16 = .ok s ∧ linVal s = some ((513 : ℕ) : ℚ) := by
  rw [show (0#16 : BitVec 16) = 0#(W.n .w16) from rfl, lin_counting_loop .w16 513]
  decide

end Takum
