import Verif.Lemmas.TestRun

/-!
# A single case of a test
-/

namespace Takum.Test
open Takum Spec

theorem parTo_eq (L : Libm) (k : Kind) (w : W) (t : T w) : parTo L k w t.toInt = toExt L k w t := by
  cases k <;> simp [parTo, toExt, BitVec.ofInt_toInt, logTo, linTo]

theorem toExt_ok (L : Libm) (k : Kind) (w : W) (t : T w) : ∃ f, toExt L k w t = .ok f := by
  cases k
  · exact logTo_ok L .ext w t
  · exact linToAll_ok .ext w t

theorem fromExt_ok (L : Libm) (k : Kind) (w : W) (f : Fl) : ∃ t, fromExt L k w f = .ok t := by
  cases k
  · exact logFrom_ok L .ext w f
  · exact linFrom_ok .ext w f

theorem parFrom_eq {L : Libm} {k : Kind} {w : W} {f : Fl} {t : T w} (h : fromExt L k w f = .ok t) :
    parFrom L k w f = .ok t.toInt := by
  cases k
  · have h' : logFrom L .ext w f = .ok t := h
    simp only [parFrom]; rw [h']; rfl
  · have h' : linFrom .ext w f = .ok t := h
    simp only [parFrom]; rw [h']; rfl

theorem two_pow_W (w : W) : (2 : ℤ) ^ (w.n - 1) ≤ 2 ^ 63 ∧ (2 : ℤ) ^ 7 ≤ 2 ^ (w.n - 1) ∧
    (w ≠ .w64 → (2 : ℤ) ^ (w.n - 1) ≤ 2 ^ 31) := by
  cases w <;> norm_num

/-- Integers of the type. -/
def InW (w : W) (r : ℤ) : Prop := -2 ^ (w.n - 1) ≤ r ∧ r < 2 ^ (w.n - 1)

theorem toInt_InW {w : W} (t : T w) : InW w t.toInt := by
  have h1 := BitVec.le_toInt (x := t)
  have h2 := BitVec.toInt_lt (x := t)
  exact ⟨h1, h2⟩

theorem Fl.eq_zero_iff (x : Fl) : Fl.eq x (.zero false) = true ↔ x.isfinite = true ∧ x.toQ = 0 := by
  cases x with
  | num q =>
    show decide (q = 0) = true ↔ true = true ∧ q = 0
    rw [decide_eq_true_iff]; simp
  | _ => simp [Fl.eq, Fl.isfinite, Fl.toQ]

theorem Fl.zero_lt_iff (x : Fl) : Fl.lt (.zero false) x = true ↔
    x = .inf false ∨ x.isfinite = true ∧ 0 < x.toQ := by
  cases x with
  | inf s => cases s <;> simp [Fl.lt, Fl.isfinite]
  | num q =>
    show decide (0 < q) = true ↔ _ ∨ true = true ∧ 0 < q
    rw [decide_eq_true_iff]; simp
  | _ => simp [Fl.lt, Fl.isfinite, Fl.toQ]

/-- The expected value exists, is the one computed, and no other. -/
theorem saturate_spec (L : Libm) (k : Kind) (w : W) (raw : Fl) (fl : Bool × Bool) :
    ∃ r, saturate L k w raw fl = .ok r ∧ InW w r ∧ ∀ r', Expected L k w raw fl r' ↔ r' = r := by
  obtain ⟨p1, p2, -⟩ := two_pow_W w
  norm_num at p2
  obtain ⟨u, o⟩ := fl
  have sgn_in : InW w (if raw.sgn then -1 else 1) := by
    unfold InW; split_ifs <;> constructor <;> linarith
  have sgn_eq : (if raw.sgn then (.ok (-parMin w) : C ℤ) else .ok (parMin w)) =
      .ok (if raw.sgn then -1 else 1) := by
    unfold parMin; split_ifs <;> rfl
  by_cases hz : Fl.eq raw (.zero false) = true
  · have hz' := (Fl.eq_zero_iff raw).mp hz
    by_cases huo : u = true ∨ o = true
    · refine ⟨if raw.sgn then -1 else 1, ?_, sgn_in, fun r' => ⟨fun h => ?_, ?_⟩⟩
      · have hlt : ¬ Fl.lt (.zero false) raw = true := by
          rw [Fl.zero_lt_iff]
          rintro (h | h)
          · rw [h] at hz'; simp [Fl.isfinite] at hz'
          · rw [hz'.2] at h; exact lt_irrefl _ h.2
        unfold saturate
        rw [sgn_eq, hz]
        rcases Bool.eq_false_or_eq_true u with h | h
        · subst h; simp
        · subst h
          have : o = true := by simpa using huo
          subst this; simp [hlt]
      · cases h with
        | tiny _ _ _ _ => rfl
        | huge _ h =>
          rcases h with h | h
          · rw [h] at hz'; simp [Fl.isfinite] at hz'
          · rw [hz'.2] at h; exact absurd h.2 (lt_irrefl _)
        | negHuge _ h =>
          rcases h with h | h | h
          · rw [h] at hz'; simp [Fl.isfinite] at hz'
          · rw [h] at hz'; simp [Fl.isfinite] at hz'
          · rw [hz'.2] at h; exact absurd h.2 (lt_irrefl _)
        | regular _ t h ht =>
          rcases h with h | h
          · subst h; simp at huo
          · exact absurd hz' h
      · rintro rfl; exact .tiny raw u o huo hz'
    · have hu : u = false := by simpa using fun h => huo (.inl h)
      have ho : o = false := by simpa using fun h => huo (.inr h)
      subst hu ho
      obtain ⟨t, ht⟩ := fromExt_ok L k w raw
      refine ⟨t.toInt, ?_, toInt_InW t, fun r' => ⟨fun h => ?_, ?_⟩⟩
      · unfold saturate; simp [parFrom_eq ht]
      · cases h with
        | tiny _ _ h _ => simp at h
        | regular _ t' h ht' => rw [ht] at ht'; cases ht'; rfl
      · rintro rfl; exact .regular raw false t (.inl rfl) ht
  · have hz' := mt (Fl.eq_zero_iff raw).mpr hz
    have hzf : Fl.eq raw (.zero false) = false := by simpa using hz
    cases o with
    | false =>
      obtain ⟨t, ht⟩ := fromExt_ok L k w raw
      refine ⟨t.toInt, ?_, toInt_InW t, fun r' => ⟨fun h => ?_, ?_⟩⟩
      · unfold saturate; simp [parFrom_eq ht, hzf]
      · cases h with
        | tiny _ _ _ h => exact absurd h hz'
        | regular _ t' h ht' => rw [ht] at ht'; cases ht'; rfl
      · rintro rfl; exact .regular raw u t (.inr hz') ht
    | true =>
      by_cases hl : Fl.lt (.zero false) raw = true
      · refine ⟨2 ^ (w.n - 1) - 1, ?_, ⟨by linarith, by linarith⟩, fun r' => ⟨fun h => ?_, ?_⟩⟩
        · unfold saturate; simp [hzf, hl, parMax]
        · cases h with
          | tiny _ _ _ h => exact absurd h hz'
          | huge _ h => rfl
          | negHuge _ h =>
            rw [Fl.zero_lt_iff] at hl
            exfalso
            rcases h with h | h | h
            · subst h; simp [Fl.isfinite] at hl
            · subst h; simp [Fl.isfinite] at hl
            · rcases hl with hl | hl
              · subst hl; simp [Fl.isfinite] at h
              · exact absurd (h.2.trans hl.2) (lt_irrefl _)
        · rintro rfl; exact .huge raw u ((Fl.zero_lt_iff raw).mp hl)
      · have hlf : Fl.lt (.zero false) raw = false := by simpa using hl
        refine ⟨-(2 ^ (w.n - 1) - 1), ?_, ⟨by linarith, by linarith⟩, fun r' => ⟨fun h => ?_, ?_⟩⟩
        · unfold saturate; simp [hzf, hlf, parMax]
        · cases h with
          | tiny _ _ _ h => exact absurd h hz'
          | huge _ h => exact absurd ((Fl.zero_lt_iff raw).mpr h) hl
          | negHuge _ h => rfl
        · rintro rfl
          refine .negHuge raw u ?_
          rw [Fl.zero_lt_iff] at hl
          push Not at hl
          cases raw with
          | nan => exact .inl rfl
          | inf s =>
            cases s with
            | true => exact .inr (.inl rfl)
            | false => exact absurd rfl hl.1
          | zero s => exact absurd ⟨rfl, rfl⟩ hz'
          | num q =>
            refine .inr (.inr ⟨rfl, ?_⟩)
            have h1 := hl.2 rfl
            have h2 : (Fl.num q).toQ ≠ 0 := fun h => hz' ⟨rfl, h⟩
            exact lt_of_le_of_ne h1 h2

theorem chk_ok {b : ℕ} {x : ℤ} (h1 : -2 ^ (b - 1) ≤ x) (h2 : x < 2 ^ (b - 1)) : chk b x = .ok x := by
  unfold chk; rw [if_pos ⟨h1, h2⟩]

theorem chk_err {b : ℕ} {x : ℤ} (h : x < -2 ^ (b - 1) ∨ 2 ^ (b - 1) ≤ x) :
    chk b x = .error .overflow := by
  unfold chk; rw [if_neg (by omega)]

theorem deviates_small {w : W} (hw : w ≠ .w64) {o r : ℤ} (ho : InW w o) (hr : InW w r) :
    deviates o r = .ok (decide (¬ |o - r| ≤ 1)) := by
  have h := (two_pow_W w).2.2 hw
  obtain ⟨r1, r2⟩ := hr
  unfold deviates
  rw [chk_ok (b := 64) (by norm_num at *; linarith) (by norm_num at *; linarith),
    chk_ok (b := 64) (by norm_num at *; linarith) (by norm_num at *; linarith)]
  by_cases h0 : o = r
  · subst h0; simp; rfl
  · rw [if_pos h0]
    show (if o ≠ r + 1 then _ else _) = _
    by_cases h1 : o = r + 1
    · subst h1; simp; rfl
    · rw [if_pos h1]
      show Except.ok (decide (o ≠ r - 1)) = _
      congr 2
      apply propext
      rw [abs_le]; omega

/-- 64 bits: the sum overflows at the largest, the difference at the smallest integer. -/
theorem deviates_any {o r : ℤ} (ho : InW .w64 o) (hr : InW .w64 r) :
    (deviates o r = .ok false ↔ |o - r| ≤ 1 ∧ ¬ (r = 2 ^ 63 - 1 ∧ o = r - 1)) ∧
    ((∃ c, deviates o r = .ok c) ↔ ¬ (r = 2 ^ 63 - 1 ∧ o ≠ r) ∧ ¬ (r = -2 ^ 63 ∧ o ≠ r ∧ o ≠ r + 1)) := by
  obtain ⟨r1, r2⟩ := hr
  obtain ⟨o1, o2⟩ := ho
  norm_num at r1 r2 o1 o2
  have hbind : ∀ {α β : Type} (a : α) (f : α → C β), ((Except.ok a : C α) >>= f) = f a := fun _ _ => rfl
  have hebind : ∀ {α β : Type} (e : UB) (f : α → C β), ((Except.error e : C α) >>= f) = .error e :=
    fun _ _ => rfl
  unfold deviates
  by_cases h0 : o = r
  · subst h0; simp [pure, Except.pure]; omega
  · rw [if_pos h0]
    by_cases hm : r = 2 ^ 63 - 1
    · rw [chk_err (.inr (by rw [hm]; norm_num)), hebind]
      constructor
      · constructor
        · intro h; cases h
        · rintro ⟨h1, h2⟩
          exfalso
          apply h2
          refine ⟨hm, ?_⟩
          rw [abs_le] at h1
          norm_num at hm
          omega
      · constructor
        · rintro ⟨c, h⟩; cases h
        · rintro ⟨h1, -⟩; exact absurd ⟨hm, h0⟩ h1
    · norm_num at hm
      rw [chk_ok (by norm_num; omega) (by norm_num; omega), hbind]
      by_cases h1 : o = r + 1
      · subst h1; simp [pure, Except.pure, hm]
      · rw [if_pos h1]
        by_cases hn : r = -2 ^ 63
        · rw [chk_err (.inl (by rw [hn]; norm_num)), hebind]
          constructor
          · constructor
            · intro h; cases h
            · rintro ⟨h2, -⟩
              rw [abs_le] at h2
              norm_num at hn
              omega
          · constructor
            · rintro ⟨c, h⟩; cases h
            · rintro ⟨-, h3⟩; exact absurd ⟨hn, h0, h1⟩ h3
        · norm_num at hn
          rw [chk_ok (by norm_num; omega) (by norm_num; omega), hbind]
          constructor
          · rw [abs_le]
            constructor
            · intro h
              have : decide (o ≠ r - 1) = false := by injection h
              simp only [decide_eq_false_iff_not, not_not] at this
              norm_num
              omega
            · rintro ⟨h2, h3⟩
              have : o = r - 1 := by omega
              show Except.ok _ = Except.ok _
              simp [this]
          · constructor
            · intro _; norm_num; omega
            · intro _; exact ⟨_, rfl⟩

/-! ## The five kinds of cases -/

theorem case_trip {E : Env} {f : Kind → (w : W) → Option (T w → C (T w))} {k : Kind} {w : W}
    {g : T w → C (T w)} (hg : f k w = some g) (t : T w) (b : ℤ) :
    ((∃ u, g t = .ok u) ↔ ∃ c, checkCase E (.roundtrip f) t.toInt b k w = .ok c) ∧
    (g t = .ok t ↔ checkCase E (.roundtrip f) t.toInt b k w = .ok false) := by
  have e : checkCase E (.roundtrip f) t.toInt b k w =
      (R.of (g t) >>= fun o => pure (decide (o.toInt ≠ t.toInt))) := by
    simp only [checkCase, hg, BitVec.ofInt_toInt]
  rw [e]
  rcases g t with u | u
  · refine ⟨⟨?_, ?_⟩, ?_, ?_⟩
    · rintro ⟨u, h⟩; cases h
    · rintro ⟨u, h⟩; cases h
    · intro h; cases h
    · intro h; cases h
  · refine ⟨⟨fun _ => ⟨_, rfl⟩, fun _ => ⟨_, rfl⟩⟩, ?_, ?_⟩
    · intro h; cases h; show Except.ok _ = _; simp
    · intro h
      have h' : decide (u.toInt ≠ t.toInt) = false := by injection h
      simp only [decide_eq_false_iff_not, not_not] at h'
      rw [BitVec.eq_of_toInt_eq h']

theorem case_none {E : Env} {f : Kind → (w : W) → Option (T w → C (T w))} {k : Kind} {w : W}
    (hg : f k w = none) (a b : ℤ) : checkCase E (.roundtrip f) a b k w = .ok false := by
  simp only [checkCase, hg]

theorem comparable_iff {w : W} {o r : ℤ} (ho : InW w o) (hr : InW w r) :
    (Comparable w o r ↔ ∃ c, deviates o r = .ok c) ∧
    (Comparable w o r ∧ |o - r| ≤ 1 ↔ deviates o r = .ok false) := by
  by_cases hw : w = .w64
  · subst hw
    obtain ⟨h1, h2⟩ := deviates_any ho hr
    have e : Comparable .w64 o r ↔
        ¬ (r = 2 ^ 63 - 1 ∧ o ≠ r) ∧ ¬ (r = -2 ^ 63 ∧ o ≠ r ∧ o ≠ r + 1) :=
      ⟨fun h => h rfl, fun h _ => h⟩
    rw [h1, h2, e]
    refine ⟨Iff.rfl, ?_, ?_⟩
    · rintro ⟨⟨g1, -⟩, g3⟩
      exact ⟨g3, fun ⟨g4, g5⟩ => g1 ⟨g4, by omega⟩⟩
    · rintro ⟨g1, g2⟩
      rw [abs_le] at g1
      obtain ⟨o1, o2⟩ := ho
      norm_num at o1 o2
      refine ⟨⟨?_, ?_⟩, abs_le.mpr g1⟩
      · rintro ⟨g4, g5⟩
        apply g2
        refine ⟨g4, ?_⟩
        norm_num at g4
        omega
      · rintro ⟨g4, g5, g6⟩
        norm_num at g4
        omega
  · have hc : Comparable w o r := fun h => absurd h hw
    rw [deviates_small hw ho hr]
    refine ⟨⟨fun _ => ⟨_, rfl⟩, fun _ => hc⟩, fun h => by simp [h.2], fun h => ⟨hc, ?_⟩⟩
    have h' : decide (¬ |o - r| ≤ 1) = false := by injection h
    simpa only [decide_eq_false_iff_not, not_not] using h'

/-- The common part of the cases with a reference function. -/
theorem case_core {L : Libm} {k : Kind} {w : W} (raw : Fl) (fl : Bool × Bool)
    (o : C (T w)) {x : R Bool}
    (hx : x = (R.of (saturate L k w raw fl) >>= fun r => R.of o >>= fun u => R.of (deviates u.toInt r))) :
    (Computed L k raw fl o ↔ ∃ c, x = .ok c) ∧ (Within L k raw fl o ↔ x = .ok false) := by
  obtain ⟨r, h1, h2, h3⟩ := saturate_spec L k w raw fl
  rw [hx, h1]
  rcases o with e | u
  · refine ⟨⟨?_, ?_⟩, ?_, ?_⟩
    · rintro ⟨u, r, h, -⟩; cases h
    · rintro ⟨u, h⟩; cases h
    · rintro ⟨u, r, h, -⟩; cases h
    · intro h; cases h
  · obtain ⟨d1, d2⟩ := comparable_iff (toInt_InW u) h2
    have e : (R.of (Except.ok r : C ℤ) >>= fun r => R.of (Except.ok u : C (T w)) >>= fun u =>
        R.of (deviates u.toInt r)) = R.of (deviates u.toInt r) := rfl
    have e1 : ∀ c, R.of (deviates u.toInt r) = .ok c ↔ deviates u.toInt r = .ok c := by
      intro c
      cases deviates u.toInt r <;> simp [R.of]
    rw [e]
    simp only [e1, ← d1, ← d2]
    refine ⟨⟨?_, fun h => ⟨u, r, rfl, (h3 r).mpr rfl, h⟩⟩, ?_,
      fun h => ⟨u, r, rfl, (h3 r).mpr rfl, h⟩⟩
    · rintro ⟨u', r', h, h', h''⟩
      cases h; rw [h3] at h'; subst h'; exact h''
    · rintro ⟨u', r', h, h', h''⟩
      cases h; rw [h3] at h'; subst h'; exact h''

theorem computed_small {L : Libm} {k : Kind} {w : W} (hw : w ≠ .w64) (raw : Fl) (fl : Bool × Bool)
    (o : C (T w)) : Computed L k raw fl o ↔ ∃ u, o = .ok u := by
  obtain ⟨r, -, -, h3⟩ := saturate_spec L k w raw fl
  exact ⟨fun ⟨u, _, h, _⟩ => ⟨u, h⟩, fun ⟨u, h⟩ => ⟨u, r, h, (h3 r).mpr rfl, fun h => absurd h hw⟩⟩

theorem case_unary {E : Env} {ref : Fl → Fl} {f : Kind → (w : W) → T w → C (T w)} {k : Kind} {w : W}
    (t : T w) (b : ℤ) :
    (DefinedUnary E ref f k w t ↔ ∃ c, checkCase E (.unary ref f) t.toInt b k w = .ok c) ∧
    (PassedUnary E ref f k w t ↔ checkCase E (.unary ref f) t.toInt b k w = .ok false) := by
  obtain ⟨a, ha⟩ := toExt_ok E.L k w t
  have e : checkCase E (.unary ref f) t.toInt b k w =
      (R.of (saturate E.L k w (ref a) (E.flags k w t.toInt 0)) >>= fun r =>
        R.of (f k w t) >>= fun u => R.of (deviates u.toInt r)) := by
    simp only [checkCase, evaluateReference, parTo_eq, ha, BitVec.ofInt_toInt]; rfl
  obtain ⟨h1, h2⟩ := case_core (L := E.L) (k := k) (ref a) (E.flags k w t.toInt 0) (f k w t) e
  rw [← h1, ← h2]
  refine ⟨⟨?_, fun h => ⟨_, ⟨a, ha, rfl⟩, h⟩⟩, ?_, fun h => ⟨_, ⟨a, ha, rfl⟩, h⟩⟩ <;>
  · rintro ⟨raw, ⟨a', ha', rfl⟩, h⟩
    rw [ha] at ha'; cases ha'; exact h

theorem definedUnary_small {E : Env} {ref : Fl → Fl} {f : Kind → (w : W) → T w → C (T w)} {k : Kind}
    {w : W} (hw : w ≠ .w64) (t : T w) : DefinedUnary E ref f k w t ↔ ∃ u, f k w t = .ok u := by
  obtain ⟨a, ha⟩ := toExt_ok E.L k w t
  refine ⟨fun ⟨raw, _, h⟩ => (computed_small hw _ _ _).mp h, fun h => ⟨_, ⟨a, ha, rfl⟩, ?_⟩⟩
  exact (computed_small hw _ _ _).mpr h

theorem case_int {E : Env} {ref : Fl → ℤ → Fl} {f : Kind → (w : W) → T w → ℤ → C (T w)}
    {cases : List ℤ} {k : Kind} {w : W} (t : T w) (n : ℤ) :
    (DefinedInt E ref f k w t n ↔ ∃ c, checkCase E (.takumInt ref f cases) t.toInt n k w = .ok c) ∧
    (PassedInt E ref f k w t n ↔ checkCase E (.takumInt ref f cases) t.toInt n k w = .ok false) := by
  obtain ⟨a, ha⟩ := toExt_ok E.L k w t
  have e : checkCase E (.takumInt ref f cases) t.toInt n k w =
      (R.of (saturate E.L k w (ref a n) (E.flags k w t.toInt n)) >>= fun r =>
        R.of (f k w t n) >>= fun u => R.of (deviates u.toInt r)) := by
    simp only [checkCase, evaluateReference, parTo_eq, ha, BitVec.ofInt_toInt]; rfl
  obtain ⟨h1, h2⟩ := case_core (L := E.L) (k := k) (ref a n) (E.flags k w t.toInt n) (f k w t n) e
  rw [← h1, ← h2]
  refine ⟨⟨?_, fun h => ⟨_, ⟨a, ha, rfl⟩, h⟩⟩, ?_, fun h => ⟨_, ⟨a, ha, rfl⟩, h⟩⟩ <;>
  · rintro ⟨raw, ⟨a', ha', rfl⟩, h⟩
    rw [ha] at ha'; cases ha'; exact h

theorem definedInt_small {E : Env} {ref : Fl → ℤ → Fl} {f : Kind → (w : W) → T w → ℤ → C (T w)}
    {k : Kind} {w : W} (hw : w ≠ .w64) (t : T w) (n : ℤ) :
    DefinedInt E ref f k w t n ↔ ∃ u, f k w t n = .ok u := by
  obtain ⟨a, ha⟩ := toExt_ok E.L k w t
  refine ⟨fun ⟨raw, _, h⟩ => (computed_small hw _ _ _).mp h, fun h => ⟨_, ⟨a, ha, rfl⟩, ?_⟩⟩
  exact (computed_small hw _ _ _).mpr h

theorem case_binary {E : Env} {ref : Fl → Fl → Fl} {f : Kind → (w : W) → T w → T w → C (T w)}
    {k : Kind} {w : W} (t u : T w) :
    (DefinedBinary E ref f k w t u ↔ ∃ c, checkCase E (.binary ref f) t.toInt u.toInt k w = .ok c) ∧
    (PassedBinary E ref f k w t u ↔ checkCase E (.binary ref f) t.toInt u.toInt k w = .ok false) := by
  obtain ⟨a, ha⟩ := toExt_ok E.L k w t
  obtain ⟨b, hb⟩ := toExt_ok E.L k w u
  have e : checkCase E (.binary ref f) t.toInt u.toInt k w =
      (R.of (saturate E.L k w (ref a b) (E.flags k w t.toInt u.toInt)) >>= fun r =>
        R.of (f k w t u) >>= fun v => R.of (deviates v.toInt r)) := by
    simp only [checkCase, evaluateReference, parTo_eq, ha, hb, BitVec.ofInt_toInt]; rfl
  obtain ⟨h1, h2⟩ :=
    case_core (L := E.L) (k := k) (ref a b) (E.flags k w t.toInt u.toInt) (f k w t u) e
  rw [← h1, ← h2]
  refine ⟨⟨?_, fun h => ⟨_, ⟨a, b, ha, hb, rfl⟩, h⟩⟩, ?_, fun h => ⟨_, ⟨a, b, ha, hb, rfl⟩, h⟩⟩ <;>
  · rintro ⟨raw, ⟨a', b', ha', hb', rfl⟩, h⟩
    rw [ha] at ha'; rw [hb] at hb'; cases ha'; cases hb'; exact h

theorem definedBinary_small {E : Env} {ref : Fl → Fl → Fl}
    {f : Kind → (w : W) → T w → T w → C (T w)} {k : Kind} {w : W} (hw : w ≠ .w64) (t u : T w) :
    DefinedBinary E ref f k w t u ↔ ∃ v, f k w t u = .ok v := by
  obtain ⟨a, ha⟩ := toExt_ok E.L k w t
  obtain ⟨b, hb⟩ := toExt_ok E.L k w u
  refine ⟨fun ⟨raw, _, h⟩ => (computed_small hw _ _ _).mp h, fun h => ⟨_, ⟨a, b, ha, hb, rfl⟩, ?_⟩⟩
  exact (computed_small hw _ _ _).mpr h

theorem case_byte {E : Env} {ref : Fl → Kind → W → C ℕ} {f : Kind → (w : W) → T w → C ℕ}
    {k : Kind} {w : W} (t : T w) (b : ℤ) :
    (((∃ a r, toExt E.L k w t = .ok a ∧ ref a k w = .ok r) ∧ ∃ v, f k w t = .ok v) ↔
      ∃ c, checkCase E (.uint8 ref f) t.toInt b k w = .ok c) ∧
    (PassedByte E ref f k w t ↔ checkCase E (.uint8 ref f) t.toInt b k w = .ok false) := by
  obtain ⟨a, ha⟩ := toExt_ok E.L k w t
  have e : checkCase E (.uint8 ref f) t.toInt b k w =
      (R.of (ref a k w) >>= fun r => R.of (f k w t) >>= fun v =>
        (.ok (decide ((v : ℤ) ≠ (r : ℤ))) : R Bool)) := by
    simp only [checkCase, evaluateReference, parTo_eq, ha, BitVec.ofInt_toInt]
    show ((R.of (ref a k w) >>= fun r => (pure (r : ℤ) : R ℤ)) >>= fun reference =>
      R.of (f k w t) >>= fun o => (pure (decide ((o : ℤ) ≠ reference)) : R Bool)) = _
    cases ref a k w <;> rfl
  rw [e]
  unfold PassedByte
  rw [ha]
  rcases hr : ref a k w with e | r
  · refine ⟨⟨?_, ?_⟩, ?_, ?_⟩
    · rintro ⟨⟨a', r', h1, h2⟩, -⟩; cases h1; rw [hr] at h2; cases h2
    · rintro ⟨c, h⟩; cases h
    · rintro ⟨a', r', h1, h2, -⟩; cases h1; rw [hr] at h2; cases h2
    · intro h; cases h
  · rcases hv : f k w t with e | v
    · refine ⟨⟨?_, ?_⟩, ?_, ?_⟩
      · rintro ⟨-, v, h⟩; cases h
      · rintro ⟨c, h⟩; cases h
      · rintro ⟨a', r', -, -, h⟩; cases h
      · intro h; cases h
    · refine ⟨⟨fun _ => ⟨_, rfl⟩, fun _ => ⟨⟨a, r, rfl, hr⟩, v, rfl⟩⟩, ?_, ?_⟩
      · rintro ⟨a', r', h1, h2, h3⟩
        cases h1; rw [hr] at h2; cases h2; cases h3
        show Except.ok _ = _; simp
      · intro h
        have h' : decide ((v : ℤ) ≠ (r : ℤ)) = false := by injection h
        simp only [decide_eq_false_iff_not, not_not, Nat.cast_inj] at h'
        subst h'
        exact ⟨a, v, rfl, hr, rfl⟩

end Takum.Test
