import Verif.Props.TestRandom
import Verif.Props.TestSweep
import Verif.Lemmas.TestBlocks

/-! # What the exit status of a test program says (C100) -/

namespace Takum.Test
open Spec Function

/-- The eight types in the order of the tests. -/
def types : List (Kind × W) :=
  [(.log, .w8), (.log, .w16), (.log, .w32), (.log, .w64), (.lin, .w8), (.lin, .w16), (.lin, .w32), (.lin, .w64)]

theorem types_all (k : Kind) (w : W) : (k, w) ∈ types := by cases k <;> cases w <;> decide

theorem R_bind_ok {α β : Type} {x : R α} {f : α → R β} {b : β} : (x >>= f) = .ok b ↔ ∃ a, x = .ok a ∧ f a = .ok b := by
  cases x with
  | error e => constructor
               · intro h; cases h
               · rintro ⟨a, h, -⟩; cases h
  | ok a => constructor
            · intro h; exact ⟨a, rfl, h⟩
            · rintro ⟨a', h, h'⟩; cases h; exact h'

theorem block_ok {E : Env} {blk : Block} {n : ℕ} : runBlock E blk = .ok n ↔
    ∃ rep : Kind → W → Report, (∀ k w, runType E blk k w (2 ^ 22) = .ok (rep k w)) ∧
      n = (rep .log .w8).status + (rep .log .w16).status + (rep .log .w32).status + (rep .log .w64).status +
        (rep .lin .w8).status + (rep .lin .w16).status + (rep .lin .w32).status + (rep .lin .w64).status := by
  unfold runBlock
  simp only [R_bind_ok]
  constructor
  · rintro ⟨a, ha, b, hb, c, hc, d, hd, e, he, f, hf, g, hg, h, hh, hn⟩
    refine ⟨fun k w => match k, w with
      | .log, .w8 => a | .log, .w16 => b | .log, .w32 => c | .log, .w64 => d
      | .lin, .w8 => e | .lin, .w16 => f | .lin, .w32 => g | .lin, .w64 => h, ?_, ?_⟩
    · intro k w; cases k <;> cases w <;> assumption
    · exact (Except.ok.inj hn).symm
  · rintro ⟨rep, h, hn⟩
    exact ⟨_, h _ _, _, h _ _, _, h _ _, _, h _ _, _, h _ _, _, h _ _, _, h _ _, _, h _ _, by rw [hn]; rfl⟩

theorem status_le {E : Env} {blk : Block} {k : Kind} {w : W} {m : ℕ} {r : Report} (h : runType E blk k w m = .ok r) :
    r.status = 0 ∨ r.status = 1 := by
  unfold runType at h
  simp only [R_bind_ok] at h
  obtain ⟨s, -, f, -, e⟩ := h
  rw [← Except.ok.inj e]
  show (if f > 0 then 1 else 0) = 0 ∨ (if f > 0 then 1 else 0) = 1
  split <;> simp

/-- C100: the status is the number of types with a failure. -/
theorem block_status {E : Env} {blk : Block} {n : ℕ} (h : runBlock E blk = .ok n) :
    ∃ rep : Kind → W → Report, (∀ k w, runType E blk k w (2 ^ 22) = .ok (rep k w)) ∧
      n = (types.filter fun p => (rep p.1 p.2).status ≠ 0).length ∧ n ≤ 8 := by
  obtain ⟨rep, h1, h2⟩ := block_ok.mp h
  refine ⟨rep, h1, ?_⟩
  have hs := fun k w => status_le (h1 k w)
  have key : ∀ (p : Kind × W) (l : List (Kind × W)),
      ((p :: l).filter fun p => (rep p.1 p.2).status ≠ 0).length =
        (rep p.1 p.2).status + (l.filter fun p => (rep p.1 p.2).status ≠ 0).length := by
    intro p l
    rw [List.filter_cons]
    rcases hs p.1 p.2 with e | e
    · rw [e]; simp
    · rw [e]; simp; omega
  have e : n = (types.filter fun p => (rep p.1 p.2).status ≠ 0).length := by
    unfold types
    simp only [key, List.filter_nil, List.length_nil]
    omega
  refine ⟨e, ?_⟩
  rw [e]
  exact (List.length_filter_le _ _).trans (by decide)

theorem block_zero {E : Env} {blk : Block} : runBlock E blk = .ok 0 ↔
    ∀ k w, ∃ p t, runType E blk k w (2 ^ 22) = .ok ⟨0, p, t⟩ := by
  rw [block_ok]
  constructor
  · rintro ⟨rep, h, hn⟩ k w
    refine ⟨(rep k w).passed, (rep k w).total, ?_⟩
    rw [h k w]
    have : (rep k w).status = 0 := by cases k <;> cases w <;> omega
    rw [← this]
  · intro h
    choose p t h using h
    exact ⟨fun k w => ⟨0, p k w, t k w⟩, h, rfl⟩

theorem reports_zero {D : Type} {r : R Report} {N : ℕ} {Def Pass : D → Prop} (h : Reports r N Def Pass)
    (hpd : ∀ d, Pass d → Def d) : (∃ p t, r = .ok ⟨0, p, t⟩) ↔ ∀ d, Pass d := by
  obtain ⟨h1, h2⟩ := h
  constructor
  · rintro ⟨p, t, e⟩
    by_cases hd : ∀ d, Def d
    · obtain ⟨s, e', -, hs⟩ := h1 hd
      rw [e] at e'
      apply hs.mp
      have := Except.ok.inj e'
      exact (congrArg Report.status this).symm
    · push Not at hd
      obtain ⟨u, e'⟩ := h2 hd
      rw [e] at e'; cases e'
  · intro hp
    obtain ⟨s, e, -, hs⟩ := h1 fun d => hpd d (hp d)
    rw [hs.mpr hp] at e
    exact ⟨_, _, e⟩

theorem zero_core {E : Env} {blk : Block} (S : W → Prop) {X : Kind → W → Type} [∀ k w, Nonempty (X k w)]
    (P : ∀ k w, X k w → Prop) (Sam : ∀ k w, (Fin (2 ^ 22) → X k w) → Prop)
    (hs : ∀ k w, S w → ((∃ p t, runType E blk k w (2 ^ 22) = .ok ⟨0, p, t⟩) ↔ ∀ d, P k w d))
    (hr : ∀ k w, ¬ S w → ∃ x, Sam k w x ∧ ((∃ p t, runType E blk k w (2 ^ 22) = .ok ⟨0, p, t⟩) ↔ ∀ i, P k w (x i))) :
    ∃ x : (k : Kind) → (w : W) → Fin (2 ^ 22) → X k w, (∀ k w, ¬ S w → Sam k w (x k w)) ∧
      (runBlock E blk = .ok 0 ↔ ∀ k w, (S w → ∀ d, P k w d) ∧ (¬ S w → ∀ i, P k w (x k w i))) := by
  have hx : ∀ k w, ∃ x : Fin (2 ^ 22) → X k w, ¬ S w → (Sam k w x ∧
      ((∃ p t, runType E blk k w (2 ^ 22) = .ok ⟨0, p, t⟩) ↔ ∀ i, P k w (x i))) := by
    intro k w
    by_cases hw : S w
    · exact ⟨fun _ => Classical.arbitrary _, fun h => absurd hw h⟩
    · obtain ⟨x, h⟩ := hr k w hw
      exact ⟨x, fun _ => h⟩
  choose x hx using hx
  refine ⟨x, fun k w hw => (hx k w hw).1, ?_⟩
  rw [block_zero]
  refine forall_congr' fun k => forall_congr' fun w => ?_
  by_cases hw : S w
  · rw [hs k w hw]
    exact ⟨fun h => ⟨fun _ => h, fun h' => absurd hw h'⟩, fun h => h.1 hw⟩
  · rw [(hx k w hw).2]
    exact ⟨fun h => ⟨fun h' => absurd h' hw, fun _ => h⟩, fun h => h.2 hw⟩

/-- The widths that are swept in a test of one takum (with a few integers). -/
def Swept (w : W) : Prop := w = .w8 ∨ w = .w16

theorem swept_big {w : W} (hw : ¬ Swept w) : 2 ^ 22 < parCount w := by
  cases w
  · exact absurd (Or.inl rfl) hw
  · exact absurd (Or.inr rfl) hw
  · decide
  · decide

theorem swept_small {w : W} (hw : Swept w) : w ≠ .w64 ∧ 2 ^ w.n ≤ 2 ^ 22 := by
  rcases hw with rfl | rfl <;> decide

/-- C100: a test of a function of one takum exits with 0 exactly if each of the 8- and 16-bit values of
both kinds and the 2^22 sampled 32- and 64-bit values are passed. -/
theorem zero_unary (E : Env) (ref : Fl → Fl) (f : Kind → (w : W) → T w → C (T w)) :
    ∃ x : Kind → (w : W) → Fin (2 ^ 22) → T w, (∀ k w, ¬ Swept w → Samples (E.rand k w) w (x k w)) ∧
      (runBlock E (.unary ref f) = .ok 0 ↔ ∀ k w,
        (Swept w → ∀ t, PassedUnary E ref f k w t) ∧ (¬ Swept w → ∀ i, PassedUnary E ref f k w (x k w i))) := by
  have pd : ∀ k w (t : T w), PassedUnary E ref f k w t → DefinedUnary E ref f k w t := fun k w t h =>
    (case_unary t (parNar w)).1.mpr ⟨_, (case_unary t (parNar w)).2.mp h⟩
  apply zero_core (X := fun _ w => T w) Swept (PassedUnary E ref f) (fun k w => Samples (E.rand k w) w)
  · intro k w hw
    obtain ⟨h1, h2⟩ := swept_small hw
    exact reports_zero (sweep_unary E ref f k h1 h2) (fun t h => (definedUnary_small h1 t).mp (pd k w t h))
  · intro k w hw
    obtain ⟨x, h1, h2⟩ := random_unary E ref f k (M := 2 ^ 22) (by norm_num) (by norm_num) (swept_big hw)
    exact ⟨x, h1, reports_zero h2 (fun i h => pd k w _ h)⟩

/-- C100: a round trip test.  Where there is no function nothing is required. -/
theorem zero_trip (E : Env) (f : Kind → (w : W) → Option (T w → C (T w))) :
    ∃ x : Kind → (w : W) → Fin (2 ^ 22) → T w,
      (∀ k w, ¬ Swept w → f k w ≠ none → Samples (E.rand k w) w (x k w)) ∧
      (runBlock E (.roundtrip f) = .ok 0 ↔ ∀ k w,
        (Swept w → ∀ t, ∀ g, f k w = some g → g t = .ok t) ∧
        (¬ Swept w → ∀ i, ∀ g, f k w = some g → g (x k w i) = .ok (x k w i))) := by
  apply zero_core (X := fun _ w => T w) Swept (fun k w t => ∀ g, f k w = some g → g t = .ok t)
    (fun k w x => f k w ≠ none → Samples (E.rand k w) w x)
  · intro k w hw
    obtain ⟨h1, h2⟩ := swept_small hw
    rcases hf : f k w with _ | g
    · exact ⟨fun _ _ _ h => (by cases h), fun _ => ⟨_, _, sweep_null E f k h1 h2 hf⟩⟩
    · rw [reports_zero (sweep_trip E f k h1 h2 hf) (fun t h => ⟨_, h⟩)]
      simp
  · intro k w hw
    rcases hf : f k w with _ | g
    · refine ⟨fun _ => 0#w.n, fun h => absurd rfl h, ?_⟩
      have := random_report (E := E) (k := k) (blk := .roundtrip f) trivial (by norm_num : 0 < 2 ^ 22) (by norm_num)
        (swept_big hw) (fun _ => True) (fun _ => True) (fun t => by simp [case_none hf]) (fun t => by simp [case_none hf])
      rw [reports_zero this (fun _ _ => trivial)]
      simp
    · obtain ⟨x, h1, h2⟩ := random_trip E f k (M := 2 ^ 22) (by norm_num) (by norm_num) (swept_big hw) hf
      refine ⟨x, fun _ => h1, ?_⟩
      rw [reports_zero h2 (fun i h => ⟨_, h⟩)]
      simp

/-- C100: a test of a function to `uint8_t`. -/
theorem zero_byte (E : Env) (ref : Fl → Kind → W → C ℕ) (f : Kind → (w : W) → T w → C ℕ) :
    ∃ x : Kind → (w : W) → Fin (2 ^ 22) → T w, (∀ k w, ¬ Swept w → Samples (E.rand k w) w (x k w)) ∧
      (runBlock E (.uint8 ref f) = .ok 0 ↔ ∀ k w,
        (Swept w → ∀ t, PassedByte E ref f k w t) ∧ (¬ Swept w → ∀ i, PassedByte E ref f k w (x k w i))) := by
  have pd : ∀ k w (t : T w), PassedByte E ref f k w t →
      (∃ a r, toExt E.L k w t = .ok a ∧ ref a k w = .ok r) ∧ ∃ v, f k w t = .ok v :=
    fun k w t ⟨a, r, h1, h2, h3⟩ => ⟨⟨a, r, h1, h2⟩, r, h3⟩
  apply zero_core (X := fun _ w => T w) Swept (PassedByte E ref f) (fun k w => Samples (E.rand k w) w)
  · intro k w hw
    obtain ⟨h1, h2⟩ := swept_small hw
    exact reports_zero (sweep_byte E ref f k h1 h2) (fun t h => pd k w t h)
  · intro k w hw
    obtain ⟨x, h1, h2⟩ := random_byte E ref f k (M := 2 ^ 22) (by norm_num) (by norm_num) (swept_big hw)
    exact ⟨x, h1, reports_zero h2 (fun i h => pd k w _ h)⟩

/-- C100: a test of a function of two takums exits with 0 exactly if each of the pairs of 8-bit values and
the 2^22 sampled pairs of the other widths are passed. -/
theorem zero_binary (E : Env) (ref : Fl → Fl → Fl) (f : Kind → (w : W) → T w → T w → C (T w)) :
    ∃ x : Kind → (w : W) → Fin (2 ^ 22) → T w × T w, (∀ k w, w ≠ .w8 → PairSamples (E.rand k w) w (x k w)) ∧
      (runBlock E (.binary ref f) = .ok 0 ↔ ∀ k w,
        (w = .w8 → ∀ d : T w × T w, PassedBinary E ref f k w d.1 d.2) ∧
        (w ≠ .w8 → ∀ i, PassedBinary E ref f k w (x k w i).1 (x k w i).2)) := by
  have pd : ∀ k w (t u : T w), PassedBinary E ref f k w t u → DefinedBinary E ref f k w t u := fun k w t u h =>
    (case_binary t u).1.mpr ⟨_, (case_binary t u).2.mp h⟩
  apply zero_core (X := fun _ w => T w × T w) (· = .w8) (fun k w d => PassedBinary E ref f k w d.1 d.2)
    (fun k w => PairSamples (E.rand k w) w)
  · rintro k w rfl
    exact reports_zero (sweep_binary E ref f k (w := .w8) (by decide) (by decide) (by decide))
      (fun d h => (definedBinary_small (by decide) d.1 d.2).mp (pd k .w8 d.1 d.2 h))
  · intro k w hw
    have big : 2 ^ 22 < 2 ^ w.n * 2 ^ w.n := by
      cases w
      · exact absurd rfl hw
      · decide
      · decide
      · decide
    obtain ⟨x, h1, h2⟩ := random_binary E ref f k (w := w) (M := 2 ^ 22) (by norm_num) (by norm_num) big
    exact ⟨x, h1, reports_zero h2 (fun i h => pd k w _ _ h)⟩

/-- The takums and integers of a random test: the test cases in turn, each with the same takum, starting
with 0, no takum again with the same test case. -/
def IntSamples (rand : ℕ → ℤ) (cases : List ℤ) (w : W) {M : ℕ} (x : Fin M → T w × ℤ) : Prop :=
  (∀ i, (x i).2 = cases.getD (i % cases.length) 0) ∧ (∀ h : 0 < M, (x ⟨0, h⟩).1 = 0#w.n) ∧
    (BitVec.ofInt w.n (rand 0) ≠ 0#w.n → Injective x)

/-- C100: a test of a function of a takum and an integer (at most 64 different test cases) exits with 0
exactly if each 8- and 16-bit value with each test case and the 2^22 sampled ones are passed. -/
theorem zero_int (E : Env) (ref : Fl → ℤ → Fl) (f : Kind → (w : W) → T w → ℤ → C (T w)) {cases : List ℤ}
    (hn : cases.Nodup) (hc : 0 < cases.length) (hl : cases.length ≤ 64) :
    ∃ x : Kind → (w : W) → Fin (2 ^ 22) → T w × ℤ, (∀ k w, ¬ Swept w → IntSamples (E.rand k w) cases w (x k w)) ∧
      (runBlock E (.takumInt ref f cases) = .ok 0 ↔ ∀ k w,
        (Swept w → ∀ d : T w × ℤ, d.2 ∈ cases → PassedInt E ref f k w d.1 d.2) ∧
        (¬ Swept w → ∀ i, (x k w i).2 ∈ cases → PassedInt E ref f k w (x k w i).1 (x k w i).2)) := by
  have pd : ∀ k w (t : T w) (n : ℤ), PassedInt E ref f k w t n → DefinedInt E ref f k w t n := fun k w t n h =>
    (case_int (cases := cases) t n).1.mpr ⟨_, (case_int (cases := cases) t n).2.mp h⟩
  apply zero_core (X := fun _ w => T w × ℤ) Swept (fun k w d => d.2 ∈ cases → PassedInt E ref f k w d.1 d.2)
    (fun k w => IntSamples (E.rand k w) cases w)
  · intro k w hw
    obtain ⟨h1, h2⟩ := swept_small hw
    have h3 : 2 ^ w.n ≤ 2 ^ 16 := by rcases hw with rfl | rfl <;> decide
    have h4 : 2 ^ w.n * cases.length ≤ 2 ^ 22 := by nlinarith
    rw [reports_zero (sweep_int E ref f hn hc k h1 h4 (by omega))
      (fun d h => (definedInt_small h1 d.1 _).mp (pd k w d.1 _ h))]
    constructor
    · rintro h ⟨t, n⟩ hm
      obtain ⟨j, hj, e⟩ := List.getElem_of_mem hm
      have := h (t, ⟨j, hj⟩)
      simp only [Fin.getElem_fin, e] at this
      exact this
    · intro h d
      exact h (d.1, cases[d.2]) (List.getElem_mem _)
  · intro k w hw
    have big : 2 ^ 22 < parCount w * cases.length := lt_of_lt_of_le (swept_big hw) (Nat.le_mul_of_pos_right _ hc)
    obtain ⟨x, h1, h2, h3, h4⟩ := random_int E ref f hn hc (by omega) k (w := w) (M := 2 ^ 22) (by norm_num) (by norm_num) big
    refine ⟨x, ⟨h1, fun _ => h2, h3⟩, ?_⟩
    rw [reports_zero h4 (fun i h => pd k w _ _ h)]
    refine forall_congr' fun i => ⟨fun h _ => h, fun h => h ?_⟩
    rw [h1 i, List.getD_eq_getElem _ _ (Nat.mod_lt _ hc)]
    exact List.getElem_mem _

/-- The test cases of test/integer_power.c and test/root.c. -/
example : ([-100, -10, -1, 0, 1, 10, 100] : List ℤ).Nodup ∧ ([-100, -10, -1, 0, 1, 10, 100] : List ℤ).length = 7 := by decide

/-- A function that is wrong at one 16-bit linear value is caught by the round trip test, whatever `rand()`
returns. -/
example (E : Env) : runBlock E (.roundtrip fun k w => some fun t =>
    .ok (if k = .lin ∧ w = .w16 ∧ t = 5 then 7 else t)) ≠ .ok 0 := by
  obtain ⟨x, -, h⟩ := zero_trip E (fun k w => some fun t => .ok (if k = .lin ∧ w = .w16 ∧ t = 5 then 7 else t))
  rw [Ne, h]
  intro h
  have := (h .lin .w16).1 (Or.inr rfl) 5 _ rfl
  revert this
  decide

/-- One wrong type gives the status 1. -/
example (E : Env) : runBlock E (.roundtrip fun k w => some fun t =>
    .ok (if k = .lin ∧ w = .w16 ∧ t = 5 then 7 else t)) = .ok 1 := by
  set f : Kind → (w : W) → Option (T w → C (T w)) := fun k w => some fun t =>
    .ok (if k = .lin ∧ w = .w16 ∧ t = 5 then 7 else t) with hf
  have good : ∀ k w, ¬ (k = .lin ∧ w = .w16) → ∃ p t, runType E (.roundtrip f) k w (2 ^ 22) = .ok ⟨0, p, t⟩ := by
    intro k w h
    refine type_pass (blk := .roundtrip f) trivial k w fun t => (case_trip rfl t _).2.mp ?_
    rw [if_neg fun c => h ⟨c.1, c.2.1⟩]
  obtain ⟨bad, -⟩ := sweep_trip E f .lin (w := .w16) (by decide) (maximum := 2 ^ 22) (by decide) rfl
  obtain ⟨s, e, h01, h0⟩ := bad fun t => ⟨_, rfl⟩
  have hs : s = 1 := by
    rcases h01 with h | h
    · exact absurd (h0.mp h 5) (by decide)
    · exact h
  rw [block_ok]
  have all : ∀ k w, ∃ r, runType E (.roundtrip f) k w (2 ^ 22) = .ok r ∧
      r.status = if k = .lin ∧ w = .w16 then 1 else 0 := by
    intro k w
    by_cases h : k = .lin ∧ w = .w16
    · obtain ⟨rfl, rfl⟩ := h
      exact ⟨_, e, by rw [hs]; rfl⟩
    · obtain ⟨p, t, h'⟩ := good k w h
      exact ⟨_, h', by rw [if_neg h]⟩
  choose rep h1 h2 using all
  refine ⟨rep, h1, ?_⟩
  simp [h2]

end Takum.Test
