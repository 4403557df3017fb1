import Verif.Lemmas.LogArith

/-! # The encoders and decoders (C56) -/

namespace Takum
open Spec

theorem Fl.In.cases {F : Fmt} {l : Fl} (h : l.In F) :
    l = .nan ∨ l = .inf false ∨ l = .inf true ∨ ∃ q, l.Is q ∧ F.Rep q ∧ l.toQ = q := by
  rcases l with _ | s | s | q
  · exact Or.inl rfl
  · cases s
    · exact Or.inr (Or.inl rfl)
    · exact Or.inr (Or.inr (Or.inl rfl))
  · exact Or.inr (Or.inr (Or.inr ⟨0, Fl.Is.zero s, Fmt.Rep.zero F, rfl⟩))
  · exact Or.inr (Or.inr (Or.inr ⟨q, Fl.Is.num h.1, h.2.1, rfl⟩))

/-- C56: the encoder is defined for every floating-point number, gives NaR exactly for NaN and `+∞`,
0 exactly for `-∞`, and a takum of the sign asked for otherwise. -/
theorem encoder_total (w : W) (s : Bool) (l : Fl) (hl : l.In w.encF) :
    ∃ t : T w, fromSAndL w s l = .ok t ∧ (t = nar w.n ↔ l = .nan ∨ l = .inf false) ∧
      (t = 0#w.n ↔ l = .inf true) ∧ (l.isfinite = true → t.msb = s) := by
  have h8 := w.n_pos
  have hnz := nar_ne_zero (by omega : 1 ≤ w.n)
  rcases hl.cases with h | h | h | ⟨q, h1, h2, h3⟩
  · subst h
    exact ⟨_, enc_nan w s, by simp, by simp [hnz], fun h => absurd h (by decide)⟩
  · subst h
    exact ⟨_, enc_inf_pos w s, by simp, by simp [hnz], fun h => absurd h (by decide)⟩
  · subst h
    exact ⟨_, enc_inf_neg w s, by simp [hnz.symm], by simp, fun h => absurd h (by decide)⟩
  · obtain ⟨t, e, r, hs⟩ := enc_regular s h1 h2
    refine ⟨t, e, ?_, ?_, fun _ => hs⟩
    · refine iff_of_false r.2 ?_
      rcases h1.cases with ⟨_, h⟩ | ⟨_, z, h⟩ <;> rw [h] <;> simp
    · refine iff_of_false r.1 ?_
      rcases h1.cases with ⟨_, h⟩ | ⟨_, z, h⟩ <;> rw [h] <;> simp

example : (Fl.num (-7 / 3 : ℚ) : Fl).isfinite = true ∧ (Fl.num (-7 / 4 : ℚ)).In (W.w16).encF :=
  ⟨rfl, by norm_num, ⟨⟨-7, -2, by norm_num, by decide, by decide⟩, by decide +kernel⟩⟩

/-- C56: the encoder is increasing in `l` for positive and decreasing for negative sign. -/
theorem encoder_monotone (w : W) (s : Bool) (l l' : Fl) (hl : l.In w.encF) (hl' : l'.In w.encF)
    (f : l.isfinite = true) (f' : l'.isfinite = true) (h : l.toQ ≤ l'.toQ) :
    ∃ t t' : T w, fromSAndL w s l = .ok t ∧ fromSAndL w s l' = .ok t' ∧
      (s = false → t.toInt ≤ t'.toInt) ∧ (s = true → t'.toInt ≤ t.toInt) := by
  rcases hl.cases with e | e | e | ⟨q, h1, h2, h3⟩
  · subst e; exact absurd f (by decide)
  · subst e; exact absurd f (by decide)
  · subst e; exact absurd f (by decide)
  rcases hl'.cases with e | e | e | ⟨q', h1', h2', h3'⟩
  · subst e; exact absurd f' (by decide)
  · subst e; exact absurd f' (by decide)
  · subst e; exact absurd f' (by decide)
  rw [h3, h3'] at h
  cases s
  · obtain ⟨t, t', e, e', hle⟩ := enc_mono (w := w) false h1 h1' h2 h2' (by simpa [sg] using h)
    exact ⟨t, t', e, e', fun _ => hle, fun h => absurd h (by decide)⟩
  · obtain ⟨t, t', e, e', hle⟩ := enc_mono (w := w) true h1' h1 h2' h2 (by simpa [sg] using h)
    exact ⟨t', t, e', e, fun h => absurd h (by decide), fun _ => hle⟩

/-- C56: the encoder inverts the decoder, for every bit pattern. -/
theorem encoder_decoder (w : W) (t : T w) :
    ∃ l : Fl, toL w t = .ok l ∧ fromSAndL w (decide (t.toInt < 0)) l = .ok t := by
  have hs : decide (t.toInt < 0) = t.msb := by
    rw [← isNeg_eq]; unfold isNeg; rw [BitVec.slt_eq_decide]; simp
  rw [hs]
  rcases toL_cases w t with ⟨e, h⟩ | ⟨e, h⟩ | ⟨r, x, h, hx⟩
  · exact ⟨_, h, by rw [enc_inf_neg, e]⟩
  · exact ⟨_, h, by rw [enc_nan, e]⟩
  · exact ⟨x, h, enc_of_ell r hx⟩

/-- C56: the decoder is exact: the decoded number is `ℓ` of the format. -/
theorem decoder_exact (w : W) (t : T w) (h : Regular t) :
    ∃ l : Fl, toL w t = .ok l ∧ l.isfinite = true ∧ l.toQ = ell t := by
  obtain ⟨x, e, hx⟩ := toL_regular w t h
  exact ⟨x, e, hx.isfinite, hx.toQ⟩

example : Regular 0x6812#16 := by unfold Regular; decide

/-- C56: saturation and rounding to nearest.  A number `l` with at most 20 (8 bits), 53 (16 bits), 64
(32 and 64 bits) bits after the binary point is encoded as the nearest takum. -/
theorem encoder_nearest (w : W) (s : Bool) (l : Fl) (hl : l.In w.encF) (f : l.isfinite = true)
    (hg : ∃ j : ℤ, l.toQ * 2 ^ (match w with | .w8 => 20 | .w16 => 53 | _ => 64) = j) :
    ∃ t : T w, fromSAndL w s l = .ok t ∧ NearestEll s l.toQ t := by
  rcases hl.cases with e | e | e | ⟨q, h1, h2, h3⟩
  · subst e; exact absurd f (by decide)
  · subst e; exact absurd f (by decide)
  · subst e; exact absurd f (by decide)
  rw [h3] at hg ⊢
  apply enc_nearest s h1 h2
  obtain ⟨j, hj⟩ := hg
  exact ⟨j, by rw [← hj]; cases w <;> rfl⟩

example : (Fl.num (-7 / 4 : ℚ)).toQ * 2 ^ 53 = ((-7 * 2 ^ 51 : ℤ) : ℚ) := by norm_num [Fl.toQ]

end Takum
