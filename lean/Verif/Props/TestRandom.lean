import Verif.Lemmas.TestRandom

/-!
# C83: what a random test checks

`run_unit_test_on_type` with a limit below the number of values.  The random number generator is a
linear feedback shift register that is seeded with `rand()` whenever its state is zero.
-/

namespace Takum.Test
open Takum Spec Function

/-- C83: from every state but zero the shift register goes through every state but zero exactly once
before it repeats. -/
theorem generator_cycle (w : W) {s t : T w} (hs : s ≠ 0#w.n) (ht : t ≠ 0#w.n) :
    ∃! i, i < 2 ^ w.n - 1 ∧ (lfsr w)^[i] s = t := by
  have hcard : Fintype.card (Fin (2 ^ w.n - 1)) = Nat.card {t : T w // t ≠ 0#w.n} := by
    have e1 : Nat.card {t : T w // t ≠ 0#w.n} = Nat.card {i : Fin (2 ^ w.n) // i ≠ (sweep w).symm 0#w.n} :=
      Nat.card_congr (Equiv.subtypeEquiv (sweep w).symm fun t => by simp)
    rw [e1, Nat.card_eq_fintype_card, Fintype.card_subtype_compl]
    simp
  have : Finite {t : T w // t ≠ 0#w.n} :=
    Finite.of_injective (fun t => (sweep w).symm t.1) fun a b h =>
      Subtype.ext ((sweep w).symm.injective h)
  have : Fintype {t : T w // t ≠ 0#w.n} := Fintype.ofFinite _
  let g : Fin (2 ^ w.n - 1) → {t : T w // t ≠ 0#w.n} :=
    fun i => ⟨(lfsr w)^[i] s, iterate_zero_iff w hs i⟩
  have hg : Injective g := fun i j h =>
    Fin.ext (iterate_inj w hs i.2 j.2 (congrArg Subtype.val h))
  have hb : Bijective g := (Fintype.bijective_iff_injective_and_card g).mpr
    ⟨hg, by rw [hcard, Nat.card_eq_fintype_card]⟩
  obtain ⟨i, hi⟩ := hb.2 ⟨t, ht⟩
  refine ⟨i, ⟨i.2, congrArg Subtype.val hi⟩, ?_⟩
  rintro j ⟨hj, h⟩
  exact iterate_inj w hs hj i.2 (h.trans (congrArg Subtype.val hi).symm)

/-- The samples of a random test: the first is zero, and if the low bits of the first number of `rand()`
are not all zero, no value is taken twice. -/
def Samples (rand : ℕ → ℤ) (w : W) {M : ℕ} (x : Fin M → T w) : Prop :=
  (∀ h : 0 < M, x ⟨0, h⟩ = 0#w.n) ∧ (BitVec.ofInt w.n (rand 0) ≠ 0#w.n → Injective x)

theorem xs_samples (rand : ℕ → ℤ) (w : W) {M : ℕ} (hm : M < parCount w) :
    Samples rand w (fun i : Fin M => xs rand w i) := by
  refine ⟨fun _ => xs_zero rand w, fun h i j e => Fin.ext (xs_inj h ?_ ?_ e)⟩ <;>
  · have : parCount w ≤ 2 ^ w.n := by cases w <;> decide
    omega

/-- C83: a random round trip test makes as many checks as the limit says. -/
theorem random_trip (E : Env) (f : Kind → (w : W) → Option (T w → C (T w))) (k : Kind) {w : W} {M : ℕ}
    (hM : 0 < M) (hlt : M < 2 ^ 63) (hm : M < parCount w) {g : T w → C (T w)} (hg : f k w = some g) :
    ∃ x : Fin M → T w, Samples (E.rand k w) w x ∧
      Reports (runType E (.roundtrip f) k w M) M (fun i => ∃ u, g (x i) = .ok u)
        (fun i => g (x i) = .ok (x i)) :=
  ⟨_, xs_samples _ w hm, random_report (blk := .roundtrip f) trivial hM hlt hm
    (fun t => ∃ u, g t = .ok u) (fun t => g t = .ok t) (fun t => (case_trip hg t _).1)
    (fun t => (case_trip hg t _).2)⟩

/-- C83: a random test of a function of one takum. -/
theorem random_unary (E : Env) (ref : Fl → Fl) (f : Kind → (w : W) → T w → C (T w)) (k : Kind) {w : W}
    {M : ℕ} (hM : 0 < M) (hlt : M < 2 ^ 63) (hm : M < parCount w) :
    ∃ x : Fin M → T w, Samples (E.rand k w) w x ∧
      Reports (runType E (.unary ref f) k w M) M (fun i => DefinedUnary E ref f k w (x i))
        (fun i => PassedUnary E ref f k w (x i)) :=
  ⟨_, xs_samples _ w hm, random_report (blk := .unary ref f) trivial hM hlt hm
    (DefinedUnary E ref f k w) (PassedUnary E ref f k w) (fun t => (case_unary t _).1)
    (fun t => (case_unary t _).2)⟩

/-- C83: a random test of a function to `uint8_t`. -/
theorem random_byte (E : Env) (ref : Fl → Kind → W → C ℕ) (f : Kind → (w : W) → T w → C ℕ) (k : Kind)
    {w : W} {M : ℕ} (hM : 0 < M) (hlt : M < 2 ^ 63) (hm : M < parCount w) :
    ∃ x : Fin M → T w, Samples (E.rand k w) w x ∧
      Reports (runType E (.uint8 ref f) k w M) M
        (fun i => (∃ a r, toExt E.L k w (x i) = .ok a ∧ ref a k w = .ok r) ∧ ∃ v, f k w (x i) = .ok v)
        (fun i => PassedByte E ref f k w (x i)) :=
  ⟨_, xs_samples _ w hm, random_report (blk := .uint8 ref f) trivial hM hlt hm
    (fun t => (∃ a r, toExt E.L k w t = .ok a ∧ ref a k w = .ok r) ∧ ∃ v, f k w t = .ok v)
    (PassedByte E ref f k w) (fun t => (case_byte t _).1) (fun t => (case_byte t _).2)⟩

/-- C83: a random test of a function of a takum and an integer takes the test cases in turn, each with
the same takum; no takum is taken again with the same test case. -/
theorem random_int (E : Env) (ref : Fl → ℤ → Fl) (f : Kind → (w : W) → T w → ℤ → C (T w))
    {cases : List ℤ} (hn : cases.Nodup) (hc : 0 < cases.length) (hcl : cases.length < 2 ^ 64) (k : Kind)
    {w : W} {M : ℕ} (hM : 0 < M) (hlt : M < 2 ^ 63) (hm : M < parCount w * cases.length) :
    ∃ x : Fin M → T w × ℤ, (∀ i, (x i).2 = cases.getD (i % cases.length) 0) ∧ (x ⟨0, hM⟩).1 = 0#w.n ∧
      (BitVec.ofInt w.n (E.rand k w 0) ≠ 0#w.n → Injective x) ∧
      Reports (runType E (.takumInt ref f cases) k w M) M
        (fun i => DefinedInt E ref f k w (x i).1 (x i).2)
        (fun i => PassedInt E ref f k w (x i).1 (x i).2) := by
  refine ⟨fun i => (xs (E.rand k w) w (i / cases.length), cases.getD (i % cases.length) 0),
    fun _ => rfl, ?_, ?_, int_random_report hn hc hcl hM hlt hm (DefinedInt E ref f k w)
      (PassedInt E ref f k w) (fun t n => (case_int t n).1) (fun t n => (case_int t n).2)⟩
  · simp [xs_zero]
  · intro h i j e
    have hp : parCount w ≤ 2 ^ w.n := by cases w <;> decide
    have hq : ∀ i : Fin M, (i : ℕ) / cases.length < 2 ^ w.n := fun i =>
      lt_of_lt_of_le (Nat.div_lt_of_lt_mul (by rw [mul_comm]; omega)) hp
    have e1 := xs_inj h (hq i) (hq j) (congrArg Prod.fst e)
    have e2 : cases.getD ((i : ℕ) % cases.length) 0 = cases.getD ((j : ℕ) % cases.length) 0 :=
      congrArg Prod.snd e
    have l1 : (i : ℕ) % cases.length < cases.length := Nat.mod_lt _ hc
    have l2 : (j : ℕ) % cases.length < cases.length := Nat.mod_lt _ hc
    rw [List.getD_eq_getElem _ _ l1, List.getD_eq_getElem _ _ l2] at e2
    have e3 := (List.Nodup.getElem_inj_iff hn).mp e2
    apply Fin.ext
    rw [← Nat.div_add_mod (i : ℕ) cases.length, ← Nat.div_add_mod (j : ℕ) cases.length, e1, e3]

/-- The pairs of a random test: the first is the pair of zeros; if the low bits of the first two numbers
of `rand()` are not all zero, the pairs that follow repeat with the period of the generator, and not
before. -/
def PairSamples (rand : ℕ → ℤ) (w : W) {M : ℕ} (x : Fin M → T w × T w) : Prop :=
  (∀ h : 0 < M, x ⟨0, h⟩ = (0#w.n, 0#w.n)) ∧
  (BitVec.ofInt w.n (rand 0) ≠ 0#w.n → BitVec.ofInt w.n (rand 1) ≠ 0#w.n →
    (∀ i j : Fin M, 0 < (i : ℕ) → 0 < (j : ℕ) → (x i = x j ↔ (i : ℕ) ≡ j [MOD 2 ^ w.n - 1])) ∧
    ∀ i : Fin M, 0 < (i : ℕ) → (x i).1 ≠ 0#w.n ∧ (x i).2 ≠ 0#w.n)

theorem xys_samples (rand : ℕ → ℤ) (w : W) {M : ℕ} :
    PairSamples rand w (fun i : Fin M => xys rand w i) := by
  refine ⟨fun _ => xys_zero rand w, fun h h' => ⟨fun i j hi hj => ?_, fun i hi => ?_⟩⟩
  · obtain ⟨a, ha⟩ : ∃ a, (i : ℕ) = a + 1 := ⟨i - 1, by omega⟩
    obtain ⟨b, hb⟩ : ∃ b, (j : ℕ) = b + 1 := ⟨j - 1, by omega⟩
    simp only [ha, hb]
    rw [xys_eq_iff h h']
    exact ⟨fun e => Nat.ModEq.add_right 1 e, fun e => Nat.ModEq.add_right_cancel' 1 e⟩
  · obtain ⟨a, ha⟩ : ∃ a, (i : ℕ) = a + 1 := ⟨i - 1, by omega⟩
    simp only [ha]
    rw [xys_seed h h']
    exact ⟨iterate_zero_iff w h _, iterate_zero_iff w h' _⟩

/-- C83: a random test of a function of two takums makes as many checks as the limit says. -/
theorem random_binary (E : Env) (ref : Fl → Fl → Fl) (f : Kind → (w : W) → T w → T w → C (T w))
    (k : Kind) {w : W} {M : ℕ} (hM : 0 < M) (hlt : M < 2 ^ 63) (hm : M < 2 ^ w.n * 2 ^ w.n) :
    ∃ x : Fin M → T w × T w, PairSamples (E.rand k w) w x ∧
      Reports (runType E (.binary ref f) k w M) M
        (fun i => DefinedBinary E ref f k w (x i).1 (x i).2)
        (fun i => PassedBinary E ref f k w (x i).1 (x i).2) :=
  ⟨_, xys_samples _ w, pair_random_report hM hlt hm (DefinedBinary E ref f k w)
    (PassedBinary E ref f k w) (fun t u => (case_binary t u).1) (fun t u => (case_binary t u).2)⟩

/-- C83: the number of different pairs among them is at most the number of values of the type, although
the number of pairs is the square of it. -/
theorem pairs_visited {rand : ℕ → ℤ} {w : W} {M : ℕ} (hM : 2 ^ w.n ≤ M) {x : Fin M → T w × T w}
    (hx : PairSamples rand w x) (h : BitVec.ofInt w.n (rand 0) ≠ 0#w.n)
    (h' : BitVec.ofInt w.n (rand 1) ≠ 0#w.n) : Nat.card (Set.range x) = 2 ^ w.n := by
  obtain ⟨h0, h1⟩ := hx
  obtain ⟨h2, h3⟩ := h1 h h'
  have hp : 0 < 2 ^ w.n - 1 := by cases w <;> decide
  have hr : Set.range x = Set.range (fun i : Fin (2 ^ w.n) => x ⟨i, by omega⟩) := by
    ext d
    constructor
    · rintro ⟨i, rfl⟩
      by_cases hi : (i : ℕ) = 0
      · exact ⟨⟨0, by omega⟩, congrArg x (Fin.ext hi.symm)⟩
      · have hlt := Nat.mod_lt ((i : ℕ) - 1) hp
        refine ⟨⟨((i : ℕ) - 1) % (2 ^ w.n - 1) + 1, by omega⟩, ?_⟩
        refine (h2 _ _ (by simp) (by omega)).mpr ?_
        have : ((i : ℕ) - 1) % (2 ^ w.n - 1) + 1 ≡ (i : ℕ) - 1 + 1 [MOD 2 ^ w.n - 1] :=
          (Nat.mod_modEq _ _).add_right 1
        rw [Nat.sub_add_cancel (by omega)] at this
        exact this
    · rintro ⟨i, rfl⟩; exact ⟨_, rfl⟩
  rw [hr, Nat.card_range_of_injective]
  · simp
  · intro i j e
    have e' : x ⟨i, by omega⟩ = x ⟨j, by omega⟩ := e
    have hz : x ⟨0, by omega⟩ = (0#w.n, 0#w.n) := h0 _
    by_cases hi : (i : ℕ) = 0
    · by_cases hj : (j : ℕ) = 0
      · exact Fin.ext (hi.trans hj.symm)
      · have := (h3 ⟨j, by omega⟩ (Nat.pos_of_ne_zero hj)).1
        rw [← e', show (⟨i, by omega⟩ : Fin M) = ⟨0, by omega⟩ from Fin.ext hi, hz] at this
        exact absurd rfl this
    · by_cases hj : (j : ℕ) = 0
      · have := (h3 ⟨i, by omega⟩ (Nat.pos_of_ne_zero hi)).1
        rw [e', show (⟨j, by omega⟩ : Fin M) = ⟨0, by omega⟩ from Fin.ext hj, hz] at this
        exact absurd rfl this
      · have e2 := (h2 ⟨i, by omega⟩ ⟨j, by omega⟩ (Nat.pos_of_ne_zero hi) (Nat.pos_of_ne_zero hj)).mp e'
        have e3 : (i : ℕ) - 1 ≡ (j : ℕ) - 1 [MOD 2 ^ w.n - 1] := by
          refine Nat.ModEq.add_right_cancel' 1 ?_
          rw [Nat.sub_add_cancel (by omega), Nat.sub_add_cancel (by omega)]
          exact e2
        have e4 := Nat.ModEq.eq_of_lt_of_lt e3 (by omega) (by omega)
        exact Fin.ext (by omega)

/-- C83: the random test of a function of two 16-bit takums, as the repository runs it, reports 4194304
checks but checks only 65536 different pairs. -/
theorem pairs_visited_16 (E : Env) (ref : Fl → Fl → Fl) (f : Kind → (w : W) → T w → T w → C (T w))
    (k : Kind) (h : BitVec.ofInt 16 (E.rand k .w16 0) ≠ 0#16) (h' : BitVec.ofInt 16 (E.rand k .w16 1) ≠ 0#16) :
    ∃ D : Set (T .w16 × T .w16), Nat.card D = 65536 ∧
      ((∀ d ∈ D, DefinedBinary E ref f k .w16 d.1 d.2) → ∃ s p,
        runType E (.binary ref f) k .w16 (2 ^ 22) = .ok ⟨s, p, 4194304⟩ ∧
        (s = 0 ↔ ∀ d ∈ D, PassedBinary E ref f k .w16 d.1 d.2)) := by
  obtain ⟨x, h1, h2, -⟩ := random_binary E ref f k (w := .w16) (M := 2 ^ 22) (by norm_num) (by norm_num)
    (by norm_num)
  refine ⟨Set.range x, pairs_visited (by norm_num) h1 h h', fun hd => ?_⟩
  obtain ⟨s, e1, -, e2⟩ := h2 fun i => hd _ ⟨i, rfl⟩
  refine ⟨s, _, e1, e2.trans ⟨?_, fun h i => h _ ⟨i, rfl⟩⟩⟩
  rintro h _ ⟨i, rfl⟩
  exact h i

/-! ## Examples -/

/-- The limits of the repository (test/util.c:1259) and its test cases meet the hypotheses. -/
example : 0 < 2 ^ 22 ∧ 2 ^ 22 < 2 ^ 63 ∧ 2 ^ 22 < parCount .w32 ∧ 2 ^ 22 < parCount .w64 ∧
    2 ^ 22 < 2 ^ W.w16.n * 2 ^ W.w16.n ∧ 2 ^ W.w16.n ≤ 2 ^ 22 ∧ 2 ^ 22 < parCount .w32 * 7 := by decide

/-- A seed: 1 is followed by the state with the highest bit. -/
example : BitVec.ofInt W.w32.n 1 ≠ 0#W.w32.n ∧ lfsr .w32 1#32 = 0x80000000#32 := by decide

/-- A test in which every check fails is reported so. -/
example (E : Env) : runType E (.roundtrip fun _ _ => some fun t => .ok (~~~t)) .lin .w64 (2 ^ 22) =
    .ok ⟨1, 0, 4194304⟩ := by
  have hne : ∀ t : T .w64, ¬ ((.ok (~~~t) : C (T .w64)) = .ok t) := by
    intro t h
    have h : ~~~t = t := Except.ok.inj h
    have := congrArg (fun x => x.getLsbD 0) h
    simp at this
  obtain ⟨x, -, h, -⟩ := random_trip E (fun _ _ => some fun t => .ok (~~~t)) .lin (w := .w64)
    (M := 2 ^ 22) (by norm_num) (by norm_num) (by decide) rfl
  obtain ⟨s, h1, h2, h3⟩ := h fun i => ⟨_, rfl⟩
  have e : Nat.card {i : Fin (2 ^ 22) // (.ok (~~~(x i)) : C (T .w64)) = .ok (x i)} = 0 := by
    have : IsEmpty {i : Fin (2 ^ 22) // (.ok (~~~(x i)) : C (T .w64)) = .ok (x i)} :=
      ⟨fun i => hne _ i.2⟩
    exact Nat.card_of_isEmpty
  have hs : s = 1 := by
    rcases h2 with h2 | h2
    · exact absurd (h3.mp h2 ⟨0, by norm_num⟩) (hne _)
    · exact h2
  rw [h1, e, hs]
  norm_num

end Takum.Test
