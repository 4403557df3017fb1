import Verif.Lemmas.Linear
import Verif.Model.Families

/-!
# Lemmas on the conversions from floats to linear takums
-/

namespace Takum
open Spec

theorem Src.good (A : Src) : A.fmt.Good := by cases A <;> exact ⟨by decide, by decide, by decide⟩

/-- What happens to the position of the argument before it is encoded. -/
def rho : Src → W → ℚ → ℚ
  | .f32, .w8 => b32.rq
  | .f32, .w16 => b32.rq
  | .f64, .w8 => b32.rq
  | .f64, .w16 => b64.rq
  | .ext, .w8 => fun x => b32.rq (x80.rq x)
  | .ext, .w16 => fun x => b64.rq (x80.rq x)
  | .ext, .w32 => x80.rq
  | .ext, .w64 => x80.rq
  | _, _ => id

theorem rho_mono (A : Src) (w : W) {x y : ℚ} (h : x ≤ y) : rho A w x ≤ rho A w y := by
  have k1 := @Fmt.rq_mono ℚ _ _ _ _ b32 (by decide)
  have k2 := @Fmt.rq_mono ℚ _ _ _ _ b64 (by decide)
  have k3 := @Fmt.rq_mono ℚ _ _ _ _ x80 (by decide)
  cases A
  · cases w
    exacts [k1 h, k1 h, h, h]
  · cases w
    exacts [k1 h, k2 h, h, h]
  · cases w
    exacts [k1 (k3 h), k2 (k3 h), k3 h, k3 h]

theorem rho_ell (A : Src) {w : W} (t : T w) : rho A w (ell t) = ell t := by
  have h := (ell_in w t).1
  cases w
  · have e1 : b32.rq (ell t) = ell t := b32.rq_of_rep h
    have e2 : x80.rq (ell t) = ell t := x80.rq_of_rep (h.mono (by decide) (by decide))
    cases A <;> simp only [rho, e1, e2]
  · have e1 : b32.rq (ell t) = ell t := b32.rq_of_rep h
    have e3 : b64.rq (ell t) = ell t := b64.rq_of_rep (h.mono (by decide) (by decide))
    have e2 : x80.rq (ell t) = ell t := x80.rq_of_rep (h.mono (by decide) (by decide))
    cases A <;> simp only [rho, e1, e2, e3]
  · have e2 : x80.rq (ell t) = ell t := x80.rq_of_rep (h.mono (by decide) (by decide))
    cases A <;> simp only [rho, e2, id]
  · have e2 : x80.rq (ell t) = ell t := x80.rq_of_rep h
    cases A <;> simp only [rho, e2, id]

theorem lamInv_abs_lt {A : Fmt} {v : ℚ} (hv : v ≠ 0) (h : A.In v) {b : ℤ} (h1 : -b ≤ A.emin) (h2 : A.emax ≤ b) :
    |lamInv (|v|)| ≤ b := by
  obtain ⟨e1, e2⟩ := log_of_in hv h
  obtain ⟨b1, b2⟩ := frac_two_bounds (abs_pos.mpr hv)
  have k1 : (-b : ℚ) ≤ Int.log 2 |v| := by exact_mod_cast h1.trans e1
  have k2 : ((Int.log 2 |v| : ℤ) : ℚ) + 1 ≤ b := by exact_mod_cast (by omega : Int.log 2 |v| + 1 ≤ b)
  unfold lamInv
  rw [abs_le]; constructor <;> linarith

theorem lamInv_rep {A F : Fmt} {v : ℚ} (hv : v ≠ 0) (h : A.In v) (h0 : 1 ≤ A.prec) {k : ℕ} (h1 : -2 ^ k ≤ A.emin) (h2 : A.emax ≤ 2 ^ k)
    (hp : A.prec + k ≤ F.prec) (he : F.emin ≤ -(A.prec : ℤ)) : F.Rep (lamInv |v|) := by
  obtain ⟨j, hj⟩ := lamInv_grid hv h.1 h0
  have hb := lamInv_abs_lt hv h h1 h2
  refine Fmt.Rep.of_lt j (-((A.prec - 1 : ℕ) : ℤ)) ?_ (by omega) ?_
  · rw [← hj, zpow_neg, zpow_natCast]; field_simp
  · refine lt_of_le_of_lt hb ?_
    push_cast
    rw [← zpow_natCast]
    exact zpow_lt_zpow_right₀ (by norm_num) (by omega)

theorem lamInv_f32 {v : ℚ} (hv : v ≠ 0) (h : b32.In v) : b64.Rep (lamInv |v|) :=
  lamInv_rep hv h (by decide) (k := 8) (by decide) (by decide) (by decide) (by decide)

theorem lamInv_f64 {v : ℚ} (hv : v ≠ 0) (h : b64.In v) : x80.Rep (lamInv |v|) :=
  lamInv_rep hv h (by decide) (k := 11) (by decide) (by decide) (by decide) (by decide)

theorem rho_rep (A : Src) (w : W) {v : ℚ} (hv : v ≠ 0) (h : A.fmt.In v) : w.encF.Rep (rho A w (lamInv |v|)) := by
  have r1 : ∀ x : ℚ, b32.Rep (b32.rq x) := b32.rq_rep (by decide)
  have r2 : ∀ x : ℚ, b64.Rep (b64.rq x) := b64.rq_rep (by decide)
  have r3 : ∀ x : ℚ, x80.Rep (x80.rq x) := x80.rq_rep (by decide)
  cases A
  · have := lamInv_f32 hv h
    cases w
    · exact (r1 _).mono (by decide) (by decide)
    · exact (r1 _).mono (by decide) (by decide)
    · exact this.mono (by decide) (by decide)
    · exact this.mono (by decide) (by decide)
  · have := lamInv_f64 hv h
    cases w
    · exact (r1 _).mono (by decide) (by decide)
    · exact (r2 _).mono (by decide) (by decide)
    · exact this.mono (by decide) (by decide)
    · exact this.mono (by decide) (by decide)
  · cases w
    · exact (r1 _).mono (by decide) (by decide)
    · exact (r2 _).mono (by decide) (by decide)
    · exact r3 _
    · exact r3 _

/-- The twelve conversions, for finite non-zero arguments. -/
theorem linFrom_spec (A : Src) (w : W) {f : Fl} {v : ℚ} (hf : f.Is v) (hv : v ≠ 0) (h : A.fmt.In v) :
    ∃ l : Fl, linFrom A w f = fromSAndL w (decide (v < 0)) l ∧ l.Is (rho A w (lamInv |v|)) := by
  have hlt : Fl.lt f (.zero false) = decide (v < 0) := by
    rw [Bool.eq_iff_iff, Fl.lt_iff hf (Fl.Is.zero false)]; simp
  cases A
  · obtain ⟨l, h1, h2⟩ := linearLFrom_spec (F := b64) (A := b32) b64_good (by decide) (by decide) (by decide) (by decide) (by decide) hf hv h
    have hb : |lamInv (|v|)| ≤ 2 ^ 100 := (lamInv_abs_lt (b := 150) hv h (by decide) (by decide)).trans (by norm_num)
    rw [b64.rq_of_rep (lamInv_f32 hv h)] at h2
    have h3 := h2.cast (b32_good.small hb)
    cases w <;>
    · refine ⟨_, ?_, by first | exact h2 | exact h3⟩
      show linFromFloat32 _ f = _
      unfold linFromFloat32 linearLFromFloat32; rw [h1, hlt]; simp only [ok_bind]
  · obtain ⟨l, h1, h2⟩ := linearLFrom_spec (F := x80) (A := b64) x80_good (by decide) (by decide) (by decide) (by decide) (by decide) hf hv h
    have hb : |lamInv (|v|)| ≤ 2 ^ 100 := (lamInv_abs_lt (b := 1100) hv h (by decide) (by decide)).trans (by norm_num)
    rw [x80.rq_of_rep (lamInv_f64 hv h)] at h2
    have h3 := h2.cast (b32_good.small hb)
    have h4 := h2.cast (b64_good.small hb)
    cases w <;>
    · refine ⟨_, ?_, by first | exact h2 | exact h3 | exact h4⟩
      show linFromFloat64 _ f = _
      unfold linFromFloat64 linearLFromFloat64; rw [h1, hlt]; simp only [ok_bind]
  · obtain ⟨l, h1, h2⟩ := linearLFrom_spec (F := x80) (A := x80) x80_good (by decide) (by decide) (by decide) (by decide) (by decide) hf hv h
    have hb : |lamInv (|v|)| ≤ 2 ^ 15 := (lamInv_abs_lt (b := 16446) hv h (by decide) (by decide)).trans (by norm_num)
    have hb' : |x80.rq (lamInv |v|)| ≤ 2 ^ 100 := by
      refine (x80.abs_rq_le (by decide) (b := 2 ^ 15) ?_ hb).trans (by norm_num)
      have := Fmt.Rep.zpow (F := x80) (by decide) (k := 15) (by decide)
      exact_mod_cast this
    have h3 := h2.cast (b32_good.small hb')
    have h4 := h2.cast (b64_good.small hb')
    cases w <;>
    · refine ⟨_, ?_, by first | exact h2 | exact h3 | exact h4⟩
      show linFromExtended _ f = _
      unfold linFromExtended linearLFromExtended; rw [h1, hlt]; simp only [ok_bind]

theorem linearLFrom_zero (F : Fmt) (s : Bool) : linearLFrom F (.zero s) = .ok (.inf true) := by
  unfold linearLFrom; simp [Fl.isnan, Fl.isinf, Fl.eq, Fl.toQ, pure, Except.pure]

theorem linearLFrom_nan (F : Fmt) : linearLFrom F .nan = .ok .nan := by
  unfold linearLFrom; simp [Fl.isnan, pure, Except.pure]

theorem linearLFrom_inf (F : Fmt) (s : Bool) : linearLFrom F (.inf s) = .ok .nan := by
  unfold linearLFrom; simp [Fl.isnan, Fl.isinf, pure, Except.pure]

theorem linFrom_of {A : Src} {w : W} {f : Fl} (l : Fl) (hc : ∀ F, Fl.cast F l = l) (h : ∀ F, linearLFrom F f = .ok l) :
    linFrom A w f = fromSAndL w (Fl.lt f (.zero false)) l := by
  cases A
  · show linFromFloat32 _ f = _
    unfold linFromFloat32 linearLFromFloat32; rw [h]; simp only [ok_bind]; cases w <;> simp only [hc]
  · show linFromFloat64 _ f = _
    unfold linFromFloat64 linearLFromFloat64; rw [h]; simp only [ok_bind]; cases w <;> simp only [hc]
  · show linFromExtended _ f = _
    unfold linFromExtended linearLFromExtended; rw [h]; simp only [ok_bind]; cases w <;> simp only [hc]

theorem linFrom_zero (A : Src) (w : W) (s : Bool) : linFrom A w (.zero s) = .ok 0#w.n := by
  rw [linFrom_of _ (fun _ => rfl) (fun F => linearLFrom_zero F s)]; exact enc_inf_neg _ _

theorem linFrom_nan (A : Src) (w : W) : linFrom A w .nan = .ok (nar w.n) := by
  rw [linFrom_of _ (fun _ => rfl) linearLFrom_nan]; exact enc_nan _ _

theorem linFrom_inf (A : Src) (w : W) (s : Bool) : linFrom A w (.inf s) = .ok (nar w.n) := by
  rw [linFrom_of _ (fun _ => rfl) (fun F => linearLFrom_inf F s)]; exact enc_nan _ _

theorem sg_decide_abs (v : ℚ) : sg (decide (v < 0)) * |v| = v := by
  by_cases h : v < 0
  · simp [sg, h, abs_of_neg h]
  · simp [sg, h, abs_of_nonneg (not_lt.mp h)]

theorem sg_mono {s : Bool} {x y : ℚ} {f : ℚ → ℚ} (hf : Monotone f) (h : sg s * x ≤ sg s * y) :
    sg s * f x ≤ sg s * f y := by
  cases s
  · simp only [sg, Bool.false_eq_true, if_false, one_mul] at h ⊢; exact hf h
  · simp only [sg, if_true, neg_mul, one_mul, neg_le_neg_iff] at h ⊢; exact hf h

theorem sg_lamInv {s : Bool} {u v : ℚ} (hu : 0 < u) (hv : 0 < v) (h : sg s * u ≤ sg s * v) :
    sg s * lamInv u ≤ sg s * lamInv v := by
  cases s
  · simp only [sg, Bool.false_eq_true, if_false, one_mul] at h ⊢; exact (lamInv_le_iff hu hv).mpr h
  · simp only [sg, if_true, neg_mul, one_mul, neg_le_neg_iff] at h ⊢; exact (lamInv_le_iff hv hu).mpr h

/-- Result of a conversion: regular, of the right sign, and faithful. -/
theorem linFrom_faithful (A : Src) (w : W) {f : Fl} {v : ℚ} (hf : f.Is v) (hv : v ≠ 0) (h : A.fmt.In v) :
    ∃ t : T w, linFrom A w f = .ok t ∧ Regular t ∧ t.msb = decide (v < 0) ∧
      ∀ t' : T w, Regular t' → (lv t' ≤ v → t'.toInt ≤ t.toInt) ∧ (v ≤ lv t' → t.toInt ≤ t'.toInt) := by
  have h8 := w.n_pos
  obtain ⟨l, e, hl⟩ := linFrom_spec A w hf hv h
  have hr := rho_rep A w hv h
  obtain ⟨t, et, rt, st⟩ := enc_regular (decide (v < 0)) hl hr
  refine ⟨t, by rw [e, et], rt, st, ?_⟩
  intro t' rt'
  have hp : 0 < |v| := abs_pos.mpr hv
  by_cases hs : t'.msb = decide (v < 0)
  · have hf := enc_faithful (decide (v < 0)) hl hr et rt' hs
    have elv : lv t' = sg (decide (v < 0)) * lam (ell t') := by unfold lv; rw [hs]
    rw [elv]
    constructor
    · intro hle
      apply hf.1
      have hle : sg (decide (v < 0)) * lam (ell t') ≤ sg (decide (v < 0)) * |v| := hle.trans (sg_decide_abs v).ge
      have := sg_lamInv (lam_pos _) hp hle
      rw [lamInv_lam] at this
      have := sg_mono (fun _ _ => rho_mono A w) this
      rwa [rho_ell] at this
    · intro hle
      apply hf.2
      have hle : sg (decide (v < 0)) * |v| ≤ sg (decide (v < 0)) * lam (ell t') := (sg_decide_abs v).le.trans hle
      have := sg_lamInv hp (lam_pos _) hle
      rw [lamInv_lam] at this
      have := sg_mono (fun _ _ => rho_mono A w) this
      rwa [rho_ell] at this
  · by_cases h0 : v < 0
    · have m1 : t'.msb = false := by simpa [h0] using hs
      have m2 : t.msb = true := by simpa [h0] using st
      have p1 : 0 < t'.toInt := (toInt_pos_iff (by omega) rt').mpr m1
      have p2 : t.toInt < 0 := (toInt_neg_iff (by omega) rt).mpr m2
      have : ¬ lv t' < 0 := by rw [lv_neg_iff, m1]; simp
      exact ⟨fun hc => absurd (lt_of_le_of_lt hc h0) this, fun _ => by omega⟩
    · have m1 : t'.msb = true := by simpa [h0] using hs
      have m2 : t.msb = false := by simpa [h0] using st
      have p1 : t'.toInt < 0 := (toInt_neg_iff (by omega) rt').mpr m1
      have p2 : 0 < t.toInt := (toInt_pos_iff (by omega) rt).mpr m2
      have : lv t' < 0 := by rw [lv_neg_iff, m1]
      exact ⟨fun _ => by omega, fun hc => absurd (lt_of_le_of_lt hc this) h0⟩

/-- A number that is a takum is converted to that takum. -/
theorem linFrom_lv (A : Src) {w : W} {t : T w} (ht : Regular t) {f : Fl} (hf : f.Is (lv t)) (h : A.fmt.In (lv t)) :
    linFrom A w f = .ok t := by
  obtain ⟨t', e, -, -, hft⟩ := linFrom_faithful A w hf (lv_ne t) h
  obtain ⟨h1, h2⟩ := hft t ht
  rw [e]; congr 1
  exact BitVec.eq_of_toInt_eq (le_antisymm (h2 le_rfl) (h1 le_rfl))

theorem linFrom_congr (A : Src) (w : W) {f g : Fl} {v : ℚ} (hf : f.Is v) (hg : g.Is v) (h : A.fmt.In v) :
    linFrom A w f = linFrom A w g := by
  by_cases hv : v = 0
  · subst hv
    rcases hf.cases with ⟨h0, _⟩ | ⟨_, s, hf⟩
    · exact absurd rfl h0
    rcases hg.cases with ⟨h0, _⟩ | ⟨_, s', hg⟩
    · exact absurd rfl h0
    rw [hf, hg, linFrom_zero, linFrom_zero]
  · rw [hf.eq_num hv, hg.eq_num hv]

/-- Defined for finite arguments, and zero exactly for zero. -/
theorem linFrom_finite (A : Src) (w : W) {f : Fl} {v : ℚ} (hf : f.Is v) (h : A.fmt.In v) :
    ∃ t : T w, linFrom A w f = .ok t ∧ t ≠ nar w.n ∧ (v = 0 → t = 0#w.n) ∧ (v < 0 → t.toInt < 0) ∧ (0 < v → 0 < t.toInt) := by
  have h8 := w.n_pos
  by_cases hv : v = 0
  · subst hv
    rcases hf.cases with ⟨h0, _⟩ | ⟨_, s, hf⟩
    · exact absurd rfl h0
    exact ⟨_, by rw [hf, linFrom_zero], (nar_ne_zero (by omega)).symm, fun _ => rfl, fun h => absurd h (lt_irrefl _),
      fun h => absurd h (lt_irrefl _)⟩
  · obtain ⟨t, e, rt, st, -⟩ := linFrom_faithful A w hf hv h
    refine ⟨t, e, rt.2, fun h => absurd h hv, fun h => ?_, fun h => ?_⟩
    · exact (toInt_neg_iff (by omega) rt).mpr (by simpa [h] using st)
    · exact (toInt_pos_iff (by omega) rt).mpr (by simpa [not_lt.mpr h.le] using st)

theorem linFrom_mono (A : Src) (w : W) {f g : Fl} {v u : ℚ} (hf : f.Is v) (hg : g.Is u) (hv : A.fmt.In v) (hu : A.fmt.In u)
    (h : v ≤ u) : ∃ t t' : T w, linFrom A w f = .ok t ∧ linFrom A w g = .ok t' ∧ t.toInt ≤ t'.toInt := by
  have h8 := w.n_pos
  by_cases hs : v ≠ 0 ∧ u ≠ 0 ∧ (v < 0 ↔ u < 0)
  · obtain ⟨v0, u0, hs⟩ := hs
    obtain ⟨l, e, hl⟩ := linFrom_spec A w hf v0 hv
    obtain ⟨l', e', hl'⟩ := linFrom_spec A w hg u0 hu
    have es : decide (u < 0) = decide (v < 0) := by simp [hs]
    rw [es] at e'
    rw [e, e']
    refine enc_mono _ hl hl' (rho_rep A w v0 hv) (rho_rep A w u0 hu) ?_
    apply sg_mono (fun _ _ => rho_mono A w)
    apply sg_lamInv (abs_pos.mpr v0) (abs_pos.mpr u0)
    rw [sg_decide_abs, ← es, sg_decide_abs]; exact h
  · obtain ⟨t, e, -, a1, a2, a3⟩ := linFrom_finite A w hf hv
    obtain ⟨t', e', -, b1, b2, b3⟩ := linFrom_finite A w hg hu
    refine ⟨t, t', e, e', ?_⟩
    have z : (0#w.n).toInt = 0 := by simp
    rcases lt_trichotomy v 0 with h1 | h1 | h1 <;> rcases lt_trichotomy u 0 with h2 | h2 | h2
    · exact absurd ⟨h1.ne, h2.ne, by simp [h1, h2]⟩ hs
    · rw [b1 h2, z]; exact (a2 h1).le
    · exact ((a2 h1).trans (b3 h2)).le
    · linarith
    · rw [b1 h2, a1 h1]
    · rw [a1 h1, z]; exact (b3 h2).le
    · linarith
    · linarith
    · exact absurd ⟨h1.ne', h2.ne', by simp [not_lt.mpr h1.le, not_lt.mpr h2.le]⟩ hs

/-- Nearest on the scale of the format if the position is exactly representable. -/
theorem linFrom_nearestEll (A : Src) (w : W) {f : Fl} {v : ℚ} (hf : f.Is v) (hv : v ≠ 0) (h : A.fmt.In v)
    (hr : rho A w (lamInv |v|) = lamInv |v|) (hg : OnGrid w (lamInv |v|)) :
    ∃ t : T w, linFrom A w f = .ok t ∧ NearestEll (decide (v < 0)) (lamInv |v|) t := by
  obtain ⟨l, e, hl⟩ := linFrom_spec A w hf hv h
  have hrr := rho_rep A w hv h
  rw [hr] at hl hrr
  rw [e]
  exact enc_nearest _ hl hrr hg

theorem linFrom_nearestLin (A : Src) (w : W) (hw : 12 ≤ w.n) {f : Fl} {v : ℚ} (hf : f.Is v) (hv : v ≠ 0) (h : A.fmt.In v)
    (hr : rho A w (lamInv |v|) = lamInv |v|) (hg : OnGrid w (lamInv |v|)) :
    ∃ t : T w, linFrom A w f = .ok t ∧ NearestLin v t := by
  obtain ⟨t, e, hn⟩ := linFrom_nearestEll A w hf hv h hr hg
  refine ⟨t, e, ?_⟩
  have := nearestLin_of_ell hw hn
  rwa [lam_lamInv (abs_pos.mpr hv), sg_decide_abs] at this

theorem onGrid_lamInv {w : W} {A : Fmt} {v : ℚ} (hv : v ≠ 0) (h : A.Rep v) (hp : 1 ≤ A.prec) (hg : A.prec - 1 ≤ w.grid) :
    OnGrid w (lamInv |v|) := by
  obtain ⟨j, hj⟩ := lamInv_grid hv h hp
  exact OnGrid.of_le hg hj

theorem enc_neg_any {w : W} {s : Bool} {l : Fl} (h : ∃ t : T w, fromSAndL w s l = .ok t ∧ fromSAndL w (!s) l = .ok (-t))
    {f : Fl} {A : Src} (e : linFrom A w f = fromSAndL w s l) {g : Fl} (e' : linFrom A w g = fromSAndL w (!s) l) :
    ∃ t : T w, linFrom A w f = .ok t ∧ linFrom A w g = .ok (-t) := by
  obtain ⟨t, h1, h2⟩ := h
  exact ⟨t, by rw [e, h1], by rw [e', h2]⟩

/-- All conversions but that of `long double` to 16 bits are odd. -/
theorem linFrom_neg (A : Src) (w : W) (hx : ¬ (A = .ext ∧ w = .w16)) {f : Fl} {v : ℚ} (hf : f.Is v) (hv : v ≠ 0)
    (h : A.fmt.In v) : ∃ t : T w, linFrom A w f = .ok t ∧ linFrom A w f.neg = .ok (-t) := by
  obtain ⟨l, e, hl⟩ := linFrom_spec A w hf hv h
  have hn : A.fmt.In (-v) := ⟨h.1.neg, by rw [abs_neg]; exact h.2⟩
  obtain ⟨l', e', hl'⟩ := linFrom_spec A w hf.neg (neg_ne_zero.mpr hv) hn
  have hr := rho_rep A w hv h
  have hs : decide (-v < 0) = !decide (v < 0) := by
    rcases lt_or_gt_of_ne hv with h0 | h0
    · simp [h0, h0.le]
    · simp [h0, h0.le]
  rw [abs_neg] at hl'
  rw [hs, enc_congr _ hl' hl hr] at e'
  refine enc_neg_any ?_ e e'
  have g1 : 1 ≤ A.fmt.prec := A.good.one_le
  cases w
  · refine enc_neg_8 _ hl ?_
    cases A <;> exact b32.rq_rep (by decide) _
  · cases A
    · exact enc_neg_16 _ hl (b32.rq_rep (by decide) _)
    · exact enc_neg_grid _ hl hr (onGrid_lamInv hv h.1 g1 (by decide)).rq
    · exact absurd ⟨rfl, rfl⟩ hx
  · refine enc_neg_grid _ hl hr ?_
    cases A
    · exact onGrid_lamInv hv h.1 g1 (by decide)
    · exact onGrid_lamInv hv h.1 g1 (by decide)
    · exact (onGrid_lamInv hv h.1 g1 (by decide)).rq
  · refine enc_neg_grid _ hl hr ?_
    cases A
    · exact onGrid_lamInv hv h.1 g1 (by decide)
    · exact onGrid_lamInv hv h.1 g1 (by decide)
    · exact (onGrid_lamInv hv h.1 g1 (by decide)).rq

/-! ### Exactness for 64 bits -/

theorem psiInv_grid {y : ℚ} (h1 : -255 ≤ y) (h2 : y < 255) {g : ℕ} {j : ℤ} (hj : y * 2 ^ g = j) :
    ∃ k : ℤ, psiInv y * 2 ^ (g + 7) = k := by
  have f1 : -255 ≤ ⌊y⌋ := by rw [Int.le_floor]; exact_mod_cast h1
  have f2 : ⌊y⌋ < 255 := by rw [Int.floor_lt]; exact_mod_cast h2
  obtain ⟨_, d16, -, -⟩ := drOf_spec f1 f2
  have hrr : rr (drOf ⌊y⌋) ≤ 7 := by
    have : ∀ d < 16, rr d ≤ 7 := by decide
    exact this _ d16
  refine ⟨drOf ⌊y⌋ * 2 ^ (g + 7) + (j - bias (drOf ⌊y⌋) * 2 ^ g) * 2 ^ (7 - rr (drOf ⌊y⌋)), ?_⟩
  unfold psiInv
  push_cast
  rw [← hj]
  have e : (2 : ℚ) ^ (g + 7) = 2 ^ g * 2 ^ (7 - rr (drOf ⌊y⌋)) * 2 ^ rr (drOf ⌊y⌋) := by
    rw [mul_assoc, ← pow_add, ← pow_add]; congr 1; omega
  rw [e]
  field_simp

/-- Positions on the grid of `2^-52` within the range are positions of 64-bit takums. -/
theorem enc64_exact (s : Bool) {l : Fl} {q : ℚ} (hl : l.Is q) (hq : x80.Rep q) {j : ℤ} (hj : q * 2 ^ 52 = j)
    (hb : |q| < 255) : ∃ t : T .w64, fromSAndL .w64 s l = .ok t ∧ Regular t ∧ t.msb = s ∧ ell t = q := by
  have hx : ∃ i : ℤ, sg s * q * 2 ^ 52 = i := by
    cases s
    · exact ⟨j, by rw [← hj]; simp [sg]⟩
    · exact ⟨-j, by push_cast; rw [← hj]; simp [sg]⟩
  obtain ⟨i, hi⟩ := hx
  have hxb : |sg s * q| < 255 := by rw [sg_abs]; exact hb
  obtain ⟨x1, x2⟩ := abs_lt.mp hxb
  set x := sg s * q with hxd
  obtain ⟨k, hk⟩ := psiInv_grid x1.le x2 hi
  obtain ⟨p1, p2, p3⟩ := psiInv_spec x1.le x2
  have p0 : 0 < psiInv x := by
    rcases lt_or_eq_of_le p1 with h | h
    · exact h
    · rw [← h] at p3
      have : psi 0 = -255 := by decide +kernel
      rw [this] at p3; linarith
  have k1 : 1 ≤ k := by
    have : (0 : ℚ) < k := by rw [← hk]; positivity
    exact_mod_cast this
  have k2 : k < 2 ^ 63 := by
    have : (k : ℚ) < 2 ^ 63 := by
      rw [← hk]
      calc psiInv x * 2 ^ (52 + 7) < 16 * 2 ^ (52 + 7) := mul_lt_mul_of_pos_right p2 (by positivity)
        _ = 2 ^ 63 := by norm_num
    exact_mod_cast this
  obtain ⟨kn, rfl⟩ := Int.eq_ofNat_of_zero_le (by omega : 0 ≤ k)
  have hkn : kn < 2 ^ (64 - 1) := by exact_mod_cast k2
  have hgr : OnGrid .w64 x := OnGrid.of_le (by decide : 52 ≤ W.w64.grid) hi
  have hi' : |i| < 255 * 2 ^ 52 := by
    have : |(i : ℚ)| < 255 * 2 ^ 52 := by
      rw [← hi, abs_mul, abs_of_pos (by positivity : (0 : ℚ) < 2 ^ 52)]
      exact mul_lt_mul_of_pos_right hxb (by positivity)
    exact_mod_cast this
  have hcl : clampB W.w64.encB x = x := by
    apply clampB_of_abs_le
    have e1 : W.w64.encB = 255 - 1 / 2 ^ 52 := by decide +kernel
    have h3 : |(i : ℚ)| ≤ 255 * 2 ^ 52 - 1 := by exact_mod_cast Int.le_sub_one_of_lt hi'
    rw [← hi, abs_mul, abs_of_pos (by positivity : (0 : ℚ) < 2 ^ 52)] at h3
    rw [e1]
    have : |x| ≤ (255 * 2 ^ 52 - 1) / 2 ^ 52 := by rw [le_div_iff₀ (by positivity)]; exact h3
    refine this.trans (le_of_eq ?_); norm_num
  refine ⟨_, fromSAndL_spec .w64 s hl hq, ?_⟩
  rw [← hxd, encU_grid hgr, hcl]
  have hnk : nearK W.w64.n (psiInv x) = kn :=
    nearK_of_int (n := 64) (by have := hk; norm_num at this ⊢; exact this) (by exact_mod_cast k1) (by unfold kMax; omega)
  rw [hnk]
  have hk0 : 1 ≤ kn := by exact_mod_cast k1
  refine ⟨regular_mkT (by decide) s hk0 hkn, mkT_msb (by decide) s hkn, ?_⟩
  have hpos : pos (mkT 64 s kn) = psiInv x := by
    unfold pos
    rw [mkT_low (by decide) s hkn]
    have : (kn : ℚ) = psiInv x * 2 ^ 59 := by
      have := hk; push_cast at this ⊢; linarith
    rw [this]; norm_num
  show ell (mkT 64 s kn) = q
  rw [ell_sg (by decide), mkT_msb (by decide) s hkn, hpos, p3, hxd, sg_sq]

end Takum
