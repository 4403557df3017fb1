import Verif.Lemmas.TestRandom

/-!
# C82: what a test over all values reports

`run_unit_test_on_type` with a limit that admits all values (of at most 32 bits).  `Reports` says: if
the tested function is defined on all cases, the numbers of passed and of all cases are reported and the
status is 0 exactly if all cases are passed; otherwise the test itself is undefined.  The tested and the
reference functions are arbitrary, so are `rand()` and the exception flags.
-/

namespace Takum.Test
open Takum Spec

/-- C82: a round trip test checks every value once: passed are those the function returns unchanged. -/
theorem sweep_trip (E : Env) (f : Kind → (w : W) → Option (T w → C (T w))) (k : Kind) {w : W}
    (hw : w ≠ .w64) {maximum : ℕ} (hm : 2 ^ w.n ≤ maximum) {g : T w → C (T w)} (hg : f k w = some g) :
    Reports (runType E (.roundtrip f) k w maximum) (2 ^ w.n) (fun t => ∃ u, g t = .ok u)
      (fun t => g t = .ok t) :=
  full_report (blk := .roundtrip f) trivial hw hm _ _ (fun t => (case_trip hg t _).1) (fun t => (case_trip hg t _).2)

/-- C82: a round trip test without a function (`NULL`) reports that all cases are passed. -/
theorem sweep_null (E : Env) (f : Kind → (w : W) → Option (T w → C (T w))) (k : Kind) {w : W}
    (hw : w ≠ .w64) {maximum : ℕ} (hm : 2 ^ w.n ≤ maximum) (hg : f k w = none) :
    runType E (.roundtrip f) k w maximum = .ok ⟨0, 2 ^ w.n, 2 ^ w.n⟩ := by
  obtain ⟨h, -⟩ := full_report (E := E) (blk := .roundtrip f) trivial (k := k) hw hm (fun _ => True)
    (fun _ => True) (fun t => by simp [case_none hg]) (fun t => by simp [case_none hg])
  obtain ⟨s, h1, -, h3⟩ := h (fun _ => trivial)
  rw [h1, h3.mpr (fun _ => trivial)]
  have e : Nat.card {t : T w // True} = 2 ^ w.n := by
    have := Nat.card_congr ((Equiv.subtypeUnivEquiv (p := fun _ : T w => True) fun _ => trivial).trans
      (sweep w).symm)
    rw [this, Nat.card_eq_fintype_card, Fintype.card_fin]
  rw [e]

/-- C82: a test of a function of one takum checks every value once: passed are those where the result
differs from the expected takum by at most one unit in the integer representation. -/
theorem sweep_unary (E : Env) (ref : Fl → Fl) (f : Kind → (w : W) → T w → C (T w)) (k : Kind) {w : W}
    (hw : w ≠ .w64) {maximum : ℕ} (hm : 2 ^ w.n ≤ maximum) :
    Reports (runType E (.unary ref f) k w maximum) (2 ^ w.n) (fun t => ∃ u, f k w t = .ok u)
      (PassedUnary E ref f k w) :=
  full_report (blk := .unary ref f) trivial hw hm _ _
    (fun t => (definedUnary_small hw t).symm.trans (case_unary t _).1) (fun t => (case_unary t _).2)

/-- C82: a test of a function to `uint8_t` checks every value once: passed are those with the result of
the reference function. -/
theorem sweep_byte (E : Env) (ref : Fl → Kind → W → C ℕ) (f : Kind → (w : W) → T w → C ℕ) (k : Kind)
    {w : W} (hw : w ≠ .w64) {maximum : ℕ} (hm : 2 ^ w.n ≤ maximum) :
    Reports (runType E (.uint8 ref f) k w maximum) (2 ^ w.n)
      (fun t => (∃ a r, toExt E.L k w t = .ok a ∧ ref a k w = .ok r) ∧ ∃ v, f k w t = .ok v)
      (PassedByte E ref f k w) :=
  full_report (blk := .uint8 ref f) trivial hw hm _ _ (fun t => (case_byte t _).1) (fun t => (case_byte t _).2)

/-- C82: a test of a function of two takums checks every pair once. -/
theorem sweep_binary (E : Env) (ref : Fl → Fl → Fl) (f : Kind → (w : W) → T w → T w → C (T w))
    (k : Kind) {w : W} (hw : w ≠ .w64) {maximum : ℕ} (hm : 2 ^ w.n * 2 ^ w.n ≤ maximum)
    (hlt : 2 ^ w.n * 2 ^ w.n < 2 ^ 63) :
    Reports (runType E (.binary ref f) k w maximum) (2 ^ w.n * 2 ^ w.n)
      (fun d : T w × T w => ∃ v, f k w d.1 d.2 = .ok v)
      (fun d => PassedBinary E ref f k w d.1 d.2) :=
  pair_report hw hm hlt _ _
    (fun t u => (definedBinary_small hw t u).symm.trans (case_binary t u).1)
    (fun t u => (case_binary t u).2)

/-- C82: a test of a function of a takum and an integer checks every value with every test case once, if
the test cases are different. -/
theorem sweep_int (E : Env) (ref : Fl → ℤ → Fl) (f : Kind → (w : W) → T w → ℤ → C (T w))
    {cases : List ℤ} (hn : cases.Nodup) (hc : 0 < cases.length) (k : Kind) {w : W} (hw : w ≠ .w64)
    {maximum : ℕ} (hm : 2 ^ w.n * cases.length ≤ maximum) (hlt : 2 ^ w.n * cases.length < 2 ^ 63) :
    Reports (runType E (.takumInt ref f cases) k w maximum) (2 ^ w.n * cases.length)
      (fun d : T w × Fin cases.length => ∃ v, f k w d.1 cases[d.2] = .ok v)
      (fun d => PassedInt E ref f k w d.1 cases[d.2]) :=
  int_report hn hc hw hm hlt _ _
    (fun t j => (definedInt_small hw t cases[j]).symm.trans (case_int t cases[j]).1)
    (fun t j => (case_int t cases[j]).2)

/-! ## Examples -/

/-- The types of at most 16 bits are swept in the blocks of the repository (`maximum` is `2^22`,
test/util.c:1259), with the test cases of test/integer_power.c and test/root.c too. -/
example : (W.w8 ≠ .w64 ∧ W.w16 ≠ .w64) ∧ 2 ^ W.w16.n ≤ 2 ^ 22 ∧ 2 ^ W.w8.n * 2 ^ W.w8.n ≤ 2 ^ 22 ∧
    2 ^ W.w16.n * 7 ≤ 2 ^ 22 ∧ ([-100, -10, -1, 0, 1, 10, 100] : List ℤ).Nodup := by decide

/-- A function that is wrong at a single value is caught: the identity with the bits of 5 exchanged for
those of 7 fails the round trip test with exactly one failure. -/
example (E : Env) : ∃ s, runType E (.roundtrip fun _ _ => some fun t => .ok (if t = 5 then 7 else t))
    .log .w8 (2 ^ 22) = .ok ⟨s, 255, 256⟩ ∧ s = 1 := by
  obtain ⟨h, -⟩ := sweep_trip E (fun _ _ => some fun t => .ok (if t = 5 then 7 else t)) .log
    (w := .w8) (by decide) (maximum := 2 ^ 22) (by decide) rfl
  obtain ⟨s, h1, h2, h3⟩ := h fun t => ⟨_, rfl⟩
  have e : Nat.card {t : T .w8 // (.ok (if t = 5 then 7 else t) : C (T .w8)) = .ok t} = 255 := by
    have e1 : ∀ t : T .w8, (.ok (if t = 5 then 7 else t) : C (T .w8)) = .ok t ↔ t ≠ 5 := by
      intro t
      rw [Except.ok.injEq]
      revert t
      decide
    have e2 : Nat.card {t : T .w8 // (.ok (if t = 5 then 7 else t) : C (T .w8)) = .ok t} =
        Nat.card {i : Fin 256 // i ≠ 5} := by
      let e : T .w8 ≃ Fin 256 :=
        ⟨fun t => t.toFin, fun i => BitVec.ofFin i, fun _ => rfl, fun _ => rfl⟩
      refine Nat.card_congr (Equiv.subtypeEquiv e fun t => ?_)
      rw [e1]
      exact not_congr ⟨fun h => by subst h; rfl, fun h => BitVec.eq_of_toFin_eq h⟩
    rw [e2, Nat.card_eq_fintype_card]
    decide +kernel
  rw [e] at h1
  refine ⟨s, h1, ?_⟩
  rcases h2 with h2 | h2
  · exfalso
    have := h3.mp h2 5
    exact absurd (Except.ok.inj this) (by decide)
  · exact h2

end Takum.Test
