import Verif.Lemmas.Call
import Verif.Lemmas.EncodeCor
import Verif.Lemmas.BitOps

/-!
# Results without undefined behaviour, for arbitrary floats

The encoder is defined for every argument, also for numbers that are not representable, so nothing
needs to be known about the math library.
-/

namespace Takum
open Spec

/-- The encoder for an arbitrary finite number. -/
theorem enc_any {n : ℕ} {F : Fmt} {B : ℚ} {frac : Fl → ℕ → C (BitVec 64)} (H : EncOK n F B frac)
    (s : Bool) (q : ℚ) : ∃ t, fromSAndLGen n F B frac s (.num q) = .ok t := by
  have hB := H.posB
  have hprec : 1 ≤ F.prec := by have := H.prec; omega
  obtain ⟨c, hc, e⟩ : ∃ c : ℚ, |c| ≤ B ∧ (if Fl.lt (.num q) (Fl.num B).neg then (Fl.num B).neg
      else if Fl.lt (.num B) (.num q) then .num B else .num q) = Fl.num c := by
    by_cases h1 : q < -B
    · exact ⟨-B, by rw [abs_neg, abs_of_pos hB], by simp [Fl.lt, Fl.neg, Fl.toQ, h1]⟩
    · by_cases h2 : B < q
      · exact ⟨B, by rw [abs_of_pos hB], by simp [Fl.lt, Fl.neg, Fl.toQ, h1, h2]⟩
      · exact ⟨q, abs_le.mpr ⟨by linarith, by linarith⟩, by simp [Fl.lt, Fl.neg, Fl.toQ, h1, h2]⟩
  have hs := (enc_sgn H s).eq_num (by cases s <;> simp [sg])
  have hr : |F.rq (sg s * c)| ≤ B := F.abs_rq_le hprec H.rep (by rw [sg_abs]; exact hc)
  refine ⟨_, enc_core H s rfl rfl (x := F.rq (sg s * c)) ?_ hr⟩
  rw [e, hs]
  exact Fl.Is.round _ (lt_of_lt_of_le (by have := H.ltB; linarith : |F.rq (sg s * c)| < 2 ^ 128) (zpow_big H.emax))

theorem gen_ok {n : ℕ} {F : Fmt} {B : ℚ} {frac : Fl → ℕ → C (BitVec 64)} (H : EncOK n F B frac)
    (s : Bool) (l : Fl) : ∃ t, fromSAndLGen n F B frac s l = .ok t := by
  cases l with
  | nan => exact ⟨_, rfl⟩
  | inf b => cases b <;> exact ⟨_, rfl⟩
  | zero z => exact ⟨_, enc_spec H s (Fl.Is.zero z) (Fmt.Rep.zero F)⟩
  | num q => exact enc_any H s q

theorem reduce_ok {a b : W} (h : b.n < a.n) (t : T a) : ∃ v, reduce a b t = .ok v := by
  by_cases h1 : t = nar a.n
  · subst h1; exact ⟨_, reduce_nar h⟩
  by_cases h0 : t = 0#a.n
  · subst h0; exact ⟨_, reduce_zero h⟩
  exact ⟨_, reduce_regular h ⟨h0, h1⟩⟩

theorem fromSAndL_ok (w : W) (s : Bool) (l : Fl) : ∃ t, fromSAndL w s l = .ok t := by
  cases w
  · obtain ⟨t, e⟩ := gen_ok encOK32 s l
    obtain ⟨v, e'⟩ := reduce_ok (a := .w32) (b := .w8) (by decide) t
    exact ⟨v, by rw [fromSAndL_w8, show fromSAndL .w32 s l = .ok t from e, ok_bind, e']⟩
  · exact gen_ok encOK16 s l
  · exact gen_ok encOK32 s l
  · exact gen_ok encOK64 s l

theorem linearLFrom_ok (F : Fmt) (f : Fl) : ∃ l, linearLFrom F f = .ok l := by
  unfold linearLFrom
  split
  · exact ⟨_, rfl⟩
  · split <;> exact ⟨_, rfl⟩

theorem linFrom_ok (A : Src) (w : W) (f : Fl) : ∃ t, linFrom A w f = .ok t := by
  cases A
  · obtain ⟨l, e⟩ := linearLFrom_ok b64 f
    simp only [linFrom, linFromFloat32, linearLFromFloat32, e, ok_bind]
    exact fromSAndL_ok w _ _
  · obtain ⟨l, e⟩ := linearLFrom_ok x80 f
    simp only [linFrom, linFromFloat64, linearLFromFloat64, e, ok_bind]
    exact fromSAndL_ok w _ _
  · obtain ⟨l, e⟩ := linearLFrom_ok x80 f
    simp only [linFrom, linFromExtended, linearLFromExtended, e, ok_bind]
    exact fromSAndL_ok w _ _

theorem enc_reduce_ok {w : W} (h : w.n < 64) (s : Bool) (l : Fl) :
    ∃ t : T w, (do reduce .w64 w (← fromSAndL .w64 s l)) = .ok t := by
  obtain ⟨t, e⟩ := fromSAndL_ok .w64 s l
  obtain ⟨v, e'⟩ := reduce_ok (a := .w64) (b := w) h t
  exact ⟨v, by rw [e, ok_bind, e']⟩

theorem logFrom_ok (L : Libm) (A : Src) (w : W) (f : Fl) : ∃ t, logFrom L A w f = .ok t := by
  cases A <;> simp only [logFrom, fromFloat32, fromFloat64, fromExtended]
  all_goals split
  · exact ⟨_, rfl⟩
  · split
    · exact ⟨_, rfl⟩
    · cases w <;> exact fromSAndL_ok _ _ _
  · exact ⟨_, rfl⟩
  · split
    · exact ⟨_, rfl⟩
    · cases w
      · exact enc_reduce_ok (by decide) _ _
      · exact enc_reduce_ok (by decide) _ _
      · exact fromSAndL_ok _ _ _
      · exact fromSAndL_ok _ _ _
  · exact ⟨_, rfl⟩
  · split
    · exact ⟨_, rfl⟩
    · cases w
      · exact enc_reduce_ok (by decide) _ _
      · exact enc_reduce_ok (by decide) _ _
      · exact enc_reduce_ok (by decide) _ _
      · exact fromSAndL_ok _ _ _

theorem sAndLinearL_ok {w : W} (t : T w) : ∃ l x, toL w t = .ok l ∧ sAndLinearL (isNeg t) l = .ok x := by
  by_cases h1 : t = nar w.n
  · subst h1; exact ⟨_, _, toL_nar w, sAndLinearL_nan _⟩
  by_cases h0 : t = 0#w.n
  · subst h0; exact ⟨_, _, toL_zero w, sAndLinearL_inf _⟩
  obtain ⟨l, x, e, e', -⟩ := linTo_regular (w := w) ⟨h0, h1⟩
  exact ⟨l, x, e, e'⟩

theorem linToAll_ok (A : Src) (w : W) (t : T w) : ∃ x, linTo A w t = .ok x := by
  obtain ⟨l, x, e, e'⟩ := sAndLinearL_ok t
  cases A
  · simp only [linTo, linToFloat32, sAndLinearLToFloat64, e, ok_bind, e']; exact ⟨_, rfl⟩
  · simp only [linTo, linToFloat64, sAndLinearLToFloat64, e, ok_bind, e']; exact ⟨_, rfl⟩
  · cases w <;> simp only [linTo, linToExtended, sAndLinearLToFloat64, sAndLinearLToExtended, e, ok_bind, e'] <;> exact ⟨_, rfl⟩

theorem signC_eq (w : W) (t : T w) : signC w t = .ok (sign w t) := by
  unfold signC sign
  split
  · rfl
  split
  · cases w <;> rfl
  split <;> rfl

theorem inversionC_eq (w : W) (t : T w) : inversionC w t = .ok (inversion w t) := by
  have h8 : ∀ t : BitVec 8, inversionC .w8 t = .ok (inversion .w8 t) := by
    intro t
    have ht := (t ^^^ 0x7f#8).isLt
    have e : chk 32 (((t ^^^ 0x7f#8).toNat : ℤ) + 1) = .ok (((t ^^^ 0x7f#8).toNat : ℤ) + 1) := by
      unfold chk; rw [if_pos (by omega)]
    have e' : BitVec.ofInt 8 (((t ^^^ 0x7f#8).toNat : ℤ) + 1) = (t ^^^ 0x7f#8) + 1#8 := by
      rw [BitVec.ofInt_add]; simp
    have em : BitVec.ofInt 8 (2 ^ (8 - 1) - 1) = 0x7f#8 := by decide
    unfold inversionC
    simp only [W.n, em, e, Nat.reduceLT, if_true, ok_bind, pure_bind, inversion, e']
    rfl
  have h16 : ∀ t : BitVec 16, inversionC .w16 t = .ok (inversion .w16 t) := by
    intro t
    have ht := (t ^^^ 0x7fff#16).isLt
    have e : chk 32 (((t ^^^ 0x7fff#16).toNat : ℤ) + 1) = .ok (((t ^^^ 0x7fff#16).toNat : ℤ) + 1) := by
      unfold chk; rw [if_pos (by omega)]
    have e' : BitVec.ofInt 16 (((t ^^^ 0x7fff#16).toNat : ℤ) + 1) = (t ^^^ 0x7fff#16) + 1#16 := by
      rw [BitVec.ofInt_add]; simp
    have em : BitVec.ofInt 16 (2 ^ (16 - 1) - 1) = 0x7fff#16 := by decide
    unfold inversionC
    simp only [W.n, em, e, Nat.reduceLT, if_true, ok_bind, pure_bind, inversion, e']
    rfl
  cases w
  · exact h8 t
  · exact h16 t
  · rfl
  · rfl

end Takum
