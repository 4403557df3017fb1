import Verif.Model.Getline
import Verif.Props.LongDoubleOps
import Mathlib.Tactic.Ring

/-!
# C120: the checks of the model notice every violation of the rules of C

All claims about undefined behaviour rest on the operations of `CSem.lean` and on the accesses to memory of the calculator.  Here
they are characterised by what the C standard says about them: when they are defined, and their value as an integer.
-/

namespace Takum
open Spec

/-- C120: shifts, signed arithmetic and table accesses are defined exactly when C defines them, and have the value given by C. -/
theorem c_rules :
    (∀ x k y : ℤ, shlInt x k = .ok y ↔ (0 ≤ k ∧ k < 32 ∧ 0 ≤ x ∧ y ≤ 2147483647 ∧ y = x * 2 ^ k.toNat)) ∧
    (∀ (n : ℕ) (x y : BitVec n) (k : ℤ), 32 ≤ n → (shl x k = .ok y ↔
      (0 ≤ k ∧ k < n ∧ ∃ j : ℕ, (y.toNat : ℤ) = x.toNat * 2 ^ k.toNat - 2 ^ n * j))) ∧
    (∀ (n : ℕ) (x y : BitVec n) (k : ℤ), (shrU x k = .ok y ↔
      (0 ≤ k ∧ (k < 32 ∨ k < n) ∧ y.toNat * 2 ^ k.toNat ≤ x.toNat ∧ x.toNat < (y.toNat + 1) * 2 ^ k.toNat))) ∧
    (∀ x y : ℤ, (chk 32 x = .ok y ↔ (-2147483648 ≤ x ∧ x ≤ 2147483647 ∧ y = x)) ∧
      (chk 64 x = .ok y ↔ (-9223372036854775808 ≤ x ∧ x ≤ 9223372036854775807 ∧ y = x))) ∧
    (∀ (α : Type) (l : List α) (i : ℕ) (a : α), lut l i = .ok a ↔ ∃ p s, l = p ++ a :: s ∧ p.length = i) := by
  refine ⟨fun x k y => ?_, fun n x y k hn => ?_, fun n x y k => ?_, fun x y => ⟨?_, ?_⟩, fun α l i a => ?_⟩
  · unfold shlInt
    split
    · rename_i h
      constructor
      · intro e; have := Except.ok.inj e; omega
      · intro h'; rw [h'.2.2.2.2]
    · rename_i h
      constructor
      · intro e; cases e
      · intro h'; exact absurd ⟨h'.1, h'.2.1, h'.2.2.1, by omega⟩ h
  · unfold shl shlU
    rw [if_neg (by omega)]
    split
    · rename_i h
      have key : (x <<< k.toNat).toNat = x.toNat * 2 ^ k.toNat % 2 ^ n := by
        rw [BitVec.toNat_shiftLeft, Nat.shiftLeft_eq]
      constructor
      · intro e
        rw [← Except.ok.inj e, key]
        refine ⟨h.1, h.2, x.toNat * 2 ^ k.toNat / 2 ^ n, ?_⟩
        have := Nat.mod_add_div (x.toNat * 2 ^ k.toNat) (2 ^ n)
        have : ((x.toNat * 2 ^ k.toNat % 2 ^ n : ℕ) : ℤ) + ((2 ^ n * (x.toNat * 2 ^ k.toNat / 2 ^ n) : ℕ) : ℤ) =
          ((x.toNat * 2 ^ k.toNat : ℕ) : ℤ) := by exact_mod_cast this
        push_cast at this ⊢
        linarith
      · rintro ⟨-, -, j, hj⟩
        congr 1
        apply BitVec.eq_of_toNat_eq
        rw [key]
        have h1 : x.toNat * 2 ^ k.toNat = y.toNat + 2 ^ n * j := by
          have : ((x.toNat * 2 ^ k.toNat : ℕ) : ℤ) = ((y.toNat + 2 ^ n * j : ℕ) : ℤ) := by push_cast; linarith
          exact_mod_cast this
        rw [h1, Nat.add_mul_mod_self_left, Nat.mod_eq_of_lt y.isLt]
    · rename_i h
      constructor
      · intro e; cases e
      · intro h'; exact absurd ⟨h'.1, h'.2.1⟩ h
  · unfold shrU
    have hm : k < max n 32 ↔ (k < 32 ∨ k < n) := by omega
    split
    · rename_i h
      have key : (x >>> k.toNat).toNat = x.toNat / 2 ^ k.toNat := by rw [BitVec.toNat_ushiftRight, Nat.shiftRight_eq_div_pow]
      have hd : ∀ q, x.toNat / 2 ^ k.toNat = q ↔ q * 2 ^ k.toNat ≤ x.toNat ∧ x.toNat < (q + 1) * 2 ^ k.toNat := by
        intro q
        rw [Nat.div_eq_iff (by positivity)]
        have : 0 < 2 ^ k.toNat := by positivity
        have e : (q + 1) * 2 ^ k.toNat = q * 2 ^ k.toNat + 2 ^ k.toNat := by ring
        omega
      constructor
      · intro e
        rw [← Except.ok.inj e, key]
        exact ⟨h.1, by omega, (hd _).mp rfl⟩
      · rintro ⟨-, -, h1⟩
        congr 1
        apply BitVec.eq_of_toNat_eq
        rw [key, (hd _).mpr h1]
    · rename_i h
      constructor
      · intro e; cases e
      · intro h'; exact absurd ⟨h'.1, by omega⟩ h
  · unfold chk
    split
    · rename_i h
      constructor
      · intro e; have := Except.ok.inj e; omega
      · intro h'; rw [h'.2.2]
    · rename_i h
      constructor
      · intro e; cases e
      · intro h'; exact absurd ⟨by norm_num; omega, by norm_num; omega⟩ h
  · unfold chk
    split
    · rename_i h
      constructor
      · intro e; have := Except.ok.inj e; omega
      · intro h'; rw [h'.2.2]
    · rename_i h
      constructor
      · intro e; cases e
      · intro h'; exact absurd ⟨by norm_num; omega, by norm_num; omega⟩ h
  · unfold lut
    constructor
    · intro e
      split at e
      · rename_i b hb
        obtain ⟨h1, h2⟩ := List.getElem?_eq_some_iff.mp hb
        refine ⟨l.take i, l.drop (i + 1), ?_, by simp; omega⟩
        rw [← Except.ok.inj e, ← h2, List.getElem_cons_drop, List.take_append_drop]
      · cases e
    · rintro ⟨p, s, rfl, rfl⟩
      simp

/-- C120: a shift in a type narrower than `int` is done in `int` and cut off. -/
theorem c_shift_narrow {n : ℕ} (hn : n < 32) (x y : BitVec n) (k : ℤ) :
    shl x k = .ok y ↔ (0 ≤ k ∧ k < 32 ∧ (x.toNat : ℤ) * 2 ^ k.toNat ≤ 2147483647 ∧
      ∃ j : ℕ, (y.toNat : ℤ) = x.toNat * 2 ^ k.toNat - 2 ^ n * j) := by
  unfold shl shlInt
  rw [if_pos hn]
  split
  · rename_i h
    have key : (BitVec.ofInt n ((x.toNat : ℤ) * 2 ^ k.toNat)).toNat = x.toNat * 2 ^ k.toNat % 2 ^ n := by
      rw [show (x.toNat : ℤ) * 2 ^ k.toNat = ((x.toNat * 2 ^ k.toNat : ℕ) : ℤ) by push_cast; rfl, BitVec.ofInt_natCast,
        BitVec.toNat_ofNat]
    constructor
    · intro e
      have e : BitVec.ofInt n ((x.toNat : ℤ) * 2 ^ k.toNat) = y := Except.ok.inj e
      rw [← e, key]
      refine ⟨h.1, h.2.1, by omega, x.toNat * 2 ^ k.toNat / 2 ^ n, ?_⟩
      have := Nat.mod_add_div (x.toNat * 2 ^ k.toNat) (2 ^ n)
      have : ((x.toNat * 2 ^ k.toNat % 2 ^ n : ℕ) : ℤ) + ((2 ^ n * (x.toNat * 2 ^ k.toNat / 2 ^ n) : ℕ) : ℤ) =
        ((x.toNat * 2 ^ k.toNat : ℕ) : ℤ) := by exact_mod_cast this
      push_cast at this ⊢
      linarith
    · rintro ⟨-, -, -, j, hj⟩
      show (.ok (BitVec.ofInt n ((x.toNat : ℤ) * 2 ^ k.toNat)) : C (BitVec n)) = .ok y
      congr 1
      apply BitVec.eq_of_toNat_eq
      rw [key]
      have h1 : x.toNat * 2 ^ k.toNat = y.toNat + 2 ^ n * j := by
        have : ((x.toNat * 2 ^ k.toNat : ℕ) : ℤ) = ((y.toNat + 2 ^ n * j : ℕ) : ℤ) := by push_cast; linarith
        exact_mod_cast this
      rw [h1, Nat.add_mul_mod_self_left, Nat.mod_eq_of_lt y.isLt]
  · rename_i h
    constructor
    · intro e; cases e
    · intro h'; exact absurd ⟨h'.1, h'.2.1, by positivity, by omega⟩ h

/-- C120: the conversion of a float to a signed integer is defined exactly if the truncated number fits. -/
theorem c_conversion (f : Fl) (i : ℤ) :
    f.toInt 64 = .ok i ↔ f.isfinite = true ∧ ((|i| : ℤ) ≤ |f.toQ| ∧ |f.toQ| < (|i| : ℤ) + 1 ∧ (0 < f.toQ → 0 ≤ i) ∧ (f.toQ < 0 → i ≤ 0)) ∧
      -9223372036854775808 ≤ i ∧ i ≤ 9223372036854775807 := by
  have key : ∀ q : ℚ, Fl.trunc q = i ↔ (|i| : ℤ) ≤ |q| ∧ |q| < (|i| : ℤ) + 1 ∧ (0 < q → 0 ≤ i) ∧ (q < 0 → i ≤ 0) := by
    intro q
    unfold Fl.trunc
    split
    · rename_i h
      rw [Int.floor_eq_iff, abs_of_nonneg h]
      constructor
      · rintro ⟨h1, h2⟩
        have hi : 0 ≤ i := by
          by_contra hc
          have : ((i + 1 : ℤ) : ℚ) ≤ 0 := by exact_mod_cast (by omega : i + 1 ≤ 0)
          push_cast at this
          linarith
        rw [abs_of_nonneg hi]
        exact ⟨h1, h2, fun _ => hi, fun h' => absurd h (not_le.mpr h')⟩
      · rintro ⟨h1, h2, h3, h4⟩
        have hi : 0 ≤ i := by
          rcases h.lt_or_eq with h' | h'
          · exact h3 h'
          · rw [← h'] at h1
            have : (|i| : ℤ) ≤ 0 := by exact_mod_cast h1
            have := abs_nonpos_iff.mp this
            omega
        rw [abs_of_nonneg hi] at h1 h2
        exact ⟨h1, h2⟩
    · rename_i h
      have h := not_le.mp h
      rw [Int.ceil_eq_iff, abs_of_neg h]
      constructor
      · rintro ⟨h1, h2⟩
        have hi : i ≤ 0 := by
          by_contra hc
          have : (0 : ℚ) ≤ ((i - 1 : ℤ) : ℚ) := by exact_mod_cast (by omega : 0 ≤ i - 1)
          push_cast at this
          linarith
        rw [abs_of_nonpos hi]
        push_cast
        exact ⟨by linarith, by linarith, fun h' => absurd h' (not_lt.mpr h.le), fun _ => hi⟩
      · rintro ⟨h1, h2, h3, h4⟩
        have hi := h4 h
        rw [abs_of_nonpos hi] at h1 h2
        push_cast at h1 h2
        exact ⟨by linarith, by linarith⟩
  rw [← key]
  cases f with
  | zero s =>
    constructor
    · intro e
      have : i = 0 := (Except.ok.inj e).symm
      subst this
      exact ⟨rfl, by simp [Fl.trunc, Fl.toQ], by norm_num, by norm_num⟩
    · rintro ⟨-, h, -⟩
      rw [← h]; simp [Fl.trunc, Fl.toQ, Fl.toInt]
  | num r =>
    show (if -2 ^ (64 - 1) ≤ Fl.trunc r ∧ Fl.trunc r < 2 ^ (64 - 1) then (.ok (Fl.trunc r) : C ℤ) else .error .conv) = .ok i ↔
      true = true ∧ Fl.trunc r = i ∧ _
    split
    · rename_i h
      constructor
      · intro e
        have := Except.ok.inj e
        exact ⟨rfl, this, by omega, by omega⟩
      · rintro ⟨-, h, -⟩; rw [h]
    · rename_i h
      constructor
      · intro e; cases e
      · rintro ⟨-, rfl, h1, h2⟩; exact absurd ⟨by norm_num; omega, by norm_num; omega⟩ h
  | inf s => simp [Fl.toInt, Fl.isfinite]
  | nan => simp [Fl.toInt, Fl.isfinite]

/-- The rules at work: an access past the end, an overflow, shifts by a negative count and out of the sign bit. -/
example : lut [5, 7] 1 = .ok 7 ∧ lut [5, 7] 2 = .error .index ∧ chk 32 2147483648 = .error .overflow ∧ shl (1#64) (-1) = .error .shift ∧
    shlInt 1 31 = .error .shift ∧ shl (3#64) 63 = .ok 0x8000000000000000#64 ∧ (Fl.num (-7 / 2)).toInt 64 = .ok (-3) ∧
    (Fl.num (2 ^ 63)).toInt 64 = .error .conv := by decide +kernel

namespace Calc

/-- C120: a byte that `getline` writes, and an element that `stack_push` stores, is inside of the block and can be read there
afterwards, and nothing else changes; an element that `stack_pop` returns has been read from the block. -/
theorem memory_rules {α : Type} :
    (∀ (b b' : Buf) (pos : ℕ) (c : Char), b.put pos c = .ok b' → ∃ d d', b.ptr = some d ∧ b'.ptr = some d' ∧ b'.n = b.n ∧
      pos < d.length ∧ d'.length = d.length ∧ ∀ j, d'[j]? = if j = pos then some (some c) else d[j]?) ∧
    (∀ (s s' : Stack α) (o : Out α) (x : α), s.store x = .ok (s', o) → ∃ d d', s.data = some d ∧ s'.data = some d' ∧
      s'.size = s.size + 1 ∧ s.size < d.length ∧ d'.length = d.length ∧ ∀ j, d'[j]? = if j = s.size then some (some x) else d[j]?) ∧
    (∀ (s s' : Stack α) (x : α), s.pop = .ok (s', .got x) → ∃ d, s.data = some d ∧ s'.data = some d ∧ s'.size + 1 = s.size ∧
      d[s'.size]? = some (some x)) := by
  have set_get : ∀ {β : Type} (d : List (Option β)) (p : ℕ) (c : β), p < d.length →
      ∀ j, (d.set p (some c))[j]? = if j = p then some (some c) else d[j]? := by
    intro β d p c h j
    rw [List.getElem?_set]
    by_cases e : p = j
    · subst e; simp [h]
    · rw [if_neg e, if_neg (fun h => e h.symm)]
  refine ⟨fun b b' pos c h => ?_, fun s s' o x h => ?_, fun s s' x h => ?_⟩
  · unfold Buf.put at h
    split at h
    · cases h
    · rename_i d hd
      split at h
      · rename_i hp
        obtain rfl := Except.ok.inj h
        exact ⟨d, d.set pos (some c), hd, rfl, rfl, hp, by simp, set_get d pos c hp⟩
      · cases h
  · unfold Stack.store at h
    split at h
    · cases h
    · rename_i d hd
      split at h
      · rename_i hp
        have h := (Prod.mk.inj (Except.ok.inj h)).1
        subst h
        exact ⟨d, d.set s.size (some x), hd, rfl, rfl, hp, by simp, set_get d s.size x hp⟩
      · cases h
  · unfold Stack.pop at h
    split at h
    · simp at h
    · rename_i h0
      split at h
      · cases h
      · rename_i d hd
        split at h
        · rename_i y hy
          obtain ⟨h1, h2⟩ := Prod.mk.inj (Except.ok.inj h)
          subst h1
          cases h2
          exact ⟨d, hd, hd, by show s.size - 1 + 1 = s.size; omega, hy⟩
        · cases h

/-- A write that fits, one past the end, and one through the null pointer. -/
example : (Buf.put ⟨some [none, none], 2⟩ 1 'a').map (·.ptr) = .ok (some [none, some 'a']) ∧
    (Buf.put ⟨some [none, none], 2⟩ 2 'a').map (·.ptr) = .error .index ∧ (Buf.put ⟨none, 0⟩ 0 'a').map (·.ptr) = .error .index := by
  decide +kernel

end Calc

/-! ## The functions for the other formats of `long double` -/

/-- C96: with the 80-bit format, and in 16 bits with every format, the functions are those of `Model/Arith.lean`. -/
theorem ld_same (v : LD) (w : W) (h : v = .d64 ∨ w = .w16) (a b : T w) (n : BitVec 64) :
    ldMultiplication v w a b = multiplication w a b ∧ ldDivision v w a b = division w a b ∧ ldSquareRoot v w a = squareRoot w a ∧
    ldRoot v w a n = root w a n := by
  rcases h with rfl | rfl
  · unfold ldDivision division ldSquareRoot squareRoot ldRoot root
    simp only [ldToL_d64, ldF_d64, ldFromSAndL_d64, ldMultiplication_d64, and_self]
  · exact ⟨rfl, rfl, rfl, rfl⟩

theorem ld_decode {v : LD} {w : W} (hs : ¬(v = .d53 ∧ w = .w64)) {u : T w} (hu : Regular u) :
    (ldF v w).In (ell u) ∧ ∃ x, ldToL v w u = .ok x ∧ x.Is (ell u) := by
  cases w
  · exact ⟨ell_in .w8 u, toL_regular .w8 u hu⟩
  · exact ⟨ell_in .w16 u, toL_regular .w16 u hu⟩
  · exact ⟨ell_in .w32 u, toL_regular .w32 u hu⟩
  · cases v
    · exact absurd ⟨rfl, rfl⟩ hs
    · exact ⟨ell_in .w64 u, toL64_regular (F := x80) (by decide) (by decide) (by decide) (by decide) u hu⟩
    · exact ⟨ell_in_gen (F := b128) (by decide) (by decide) (by decide) u,
        toL64_regular (F := b128) (by decide) (by decide) (by decide) (by decide) u hu⟩

theorem ell_zero {w : W} {t : T w} (h : Regular t) (h0 : ell t = 0) : t = ONE w ∨ t = -ONE w := by
  obtain ⟨o1, o2, o3, o4⟩ := ONE_facts w
  have h8 := w.n_pos
  by_cases hs : t.msb = true
  · right
    apply ell_inj (by omega)
    · rw [hs]; cases w <;> decide
    · rw [h0]; cases w <;> decide +kernel
  · left
    apply ell_inj (by omega)
    · rw [o1]; simpa using hs
    · rw [h0, o4]

/-- C96: on every platform `t / 1` and the first root of `t` are what `t · 1` is, and the square root is the second root; thus the
failures of `long_double_one_refuted` are also failures of these functions. -/
theorem ld_laws (v : LD) (w : W) (t : T w) :
    ldDivision v w t (ONE w) = ldMultiplication v w t (ONE w) ∧ ldRoot v w t 1#64 = ldMultiplication v w t (ONE w) ∧
    ldRoot v w t 2#64 = ldSquareRoot v w t := by
  by_cases hs : v = .d53 ∧ w = .w64
  · obtain ⟨rfl, rfl⟩ := hs
    refine ⟨rfl, ?_, ?_⟩
    · unfold ldRoot; split <;> rfl
    · unfold ldRoot ldSquareRoot; split <;> split <;> rfl
  by_cases h : Regular t
  swap
  · have h' : t = 0#w.n ∨ t = nar w.n := by
      by_contra hc; exact h ⟨fun e => hc (.inl e), fun e => hc (.inr e)⟩
    rcases h' with rfl | rfl <;> cases v <;> cases w <;> first | exact absurd ⟨rfl, rfl⟩ hs | decide +kernel
  by_cases h0 : ell t = 0
  · rcases ell_zero h h0 with rfl | rfl <;> cases v <;> cases w <;> first | exact absurd ⟨rfl, rfl⟩ hs | decide +kernel
  obtain ⟨o1, o2, o3, o4⟩ := ONE_facts w
  obtain ⟨i, x, ex, ix⟩ := ld_decode hs h
  obtain ⟨-, y, ey, iy⟩ := ld_decode hs o3
  rw [o4] at iy
  have e1 : Fl.ofInt (ldF v w) 1 = .num 1 := by cases v <;> cases w <;> decide +kernel
  have e2 : Fl.ofInt (ldF v w) 2 = .num 2 := by cases v <;> cases w <;> decide +kernel
  have h1 : Fl.add (ldF v w) x y = .num (ell t) := by
    refine Fl.Is.eq_num (Is.round_in i fun hb => ?_) h0
    have := ix.add iy (F := ldF v w)
    rw [add_zero] at this
    exact this hb
  have h2 : Fl.sub (ldF v w) x y = .num (ell t) := by
    refine Fl.Is.eq_num (Is.round_in i fun hb => ?_) h0
    have := ix.sub iy (F := ldF v w)
    rw [sub_zero] at this
    exact this hb
  have h3 : Fl.div (ldF v w) x (.num 1) = .num (ell t) := by
    refine Fl.Is.eq_num (Is.round_in i fun hb => ?_) h0
    have := ix.div (Fl.Is.num one_ne_zero) one_ne_zero (F := ldF v w)
    rw [div_one] at this
    exact this hb
  have h4 : Fl.div (ldF v w) x (.num 2) = Fl.ldexp (ldF v w) x (-1) := by
    rw [Fl.div_eq ix (Fl.Is.num two_ne_zero) two_ne_zero, ix.eq_num h0]
    show Fl.round _ _ _ = Fl.round _ _ _
    rw [zpow_neg_one, ← div_eq_mul_inv]
    unfold Fl.round
    rw [if_neg (div_ne_zero h0 two_ne_zero), if_neg (div_ne_zero h0 two_ne_zero)]
  have em : ldMultiplication v w t (ONE w) = ldFromSAndL v w t.msb (.num (ell t)) := by
    unfold ldMultiplication
    rw [ex, ok_bind, ey, ok_bind, sign_ne h o3, o1, Bool.xor_false, h1]
  refine ⟨?_, ?_, ?_⟩
  · rw [em]
    unfold ldDivision
    rw [ex, ok_bind, ey, ok_bind, sign_ne h o3, o1, Bool.xor_false, h2]
  · rw [em]
    unfold ldRoot
    rw [if_neg (by
      rintro (h | h | h)
      · exact absurd h (by decide)
      · exact h.2 (by decide)
      · exact absurd h.2 (by decide)), ex, ok_bind, isNeg_eq]
    show ldFromSAndL v w t.msb (Fl.div (ldF v w) x (Fl.ofInt (ldF v w) 1)) = _
    rw [e1, h3]
  · unfold ldRoot ldSquareRoot
    by_cases hn : isNeg t = true
    · rw [if_pos (.inr (.inl ⟨hn, by decide⟩)), if_pos hn]
    · rw [if_neg (by
        rintro (h | h | h)
        · exact absurd h (by decide)
        · exact hn h.1
        · exact absurd h.2 (by decide)), if_neg hn, ex, ok_bind, ok_bind]
      show ldFromSAndL v w (isNeg t) (Fl.div (ldF v w) x (Fl.ofInt (ldF v w) 2)) = _
      rw [e2, h4, show isNeg t = false by simpa using hn]

/-- With 113 bits the quotient of a number and 1 is undefined, and a square root is wrong. -/
example : ldDivision .d113 .w32 0x46000000#32 (ONE .w32) = .error .shift ∧ squareRoot .w32 0x44000000#32 = .ok 0x42000000#32 ∧
    ldSquareRoot .d113 .w32 0x44000000#32 = .ok 0x44000000#32 := by decide +kernel

end Takum
