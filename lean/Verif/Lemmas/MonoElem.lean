import Verif.Lemmas.MonoConv

/-! # The float functions are monotone -/

namespace Takum
open Spec

/-- `f` is monotone (`anti = false`) or antitone on the floats with the property `P`; its values are in `G`. -/
structure MonoOn (P : Fl → Prop) (G : Fmt) (anti : Bool) (f : Fl → Fl) : Prop where
  type : ∀ x, P x → (f x).In G
  mono : ∀ x y, P x → P y → Fl.le x y = true → f x ≠ .nan → f y ≠ .nan → (bif anti then Fl.le (f y) (f x) else Fl.le (f x) (f y)) = true

namespace MonoOn

theorem comp {P Q : Fl → Prop} {G H : Fmt} {a b : Bool} {f g : Fl → Fl} (hg : MonoOn Q H b g) (hf : MonoOn P G a f)
    (hn : g .nan = .nan) (hQ : ∀ x, P x → f x ≠ .nan → Q (f x)) : MonoOn P H (xor a b) (fun x => g (f x)) := by
  refine ⟨fun x hx => ?_, fun x y hx hy h h1 h2 => ?_⟩
  · by_cases h : f x = .nan
    · show (g (f x)).In H; rw [h, hn]; trivial
    · exact hg.type _ (hQ x hx h)
  · have n1 : f x ≠ .nan := fun e => h1 (by simp only [e, hn])
    have n2 : f y ≠ .nan := fun e => h2 (by simp only [e, hn])
    have m := hf.mono x y hx hy h n1 n2
    cases a
    · have := hg.mono _ _ (hQ x hx n1) (hQ y hy n2) m h1 h2
      cases b <;> exact this
    · have := hg.mono _ _ (hQ y hy n2) (hQ x hx n1) m h2 h1
      cases b <;> exact this

theorem restrict {P Q : Fl → Prop} {G : Fmt} {a : Bool} {f : Fl → Fl} (hf : MonoOn P G a f) (h : ∀ x, Q x → P x) : MonoOn Q G a f :=
  ⟨fun x hx => hf.type x (h x hx), fun x y hx hy => hf.mono x y (h x hx) (h y hy)⟩

theorem congr {P : Fl → Prop} {G : Fmt} {a : Bool} {f g : Fl → Fl} (hf : MonoOn P G a f) (h : ∀ x, P x → g x = f x) : MonoOn P G a g := by
  refine ⟨fun x hx => by rw [h x hx]; exact hf.type x hx, fun x y hx hy hl => ?_⟩
  rw [h x hx, h y hy]; exact hf.mono x y hx hy hl

theorem up {P : Fl → Prop} {a : Bool} {f : Fl → Fl} (hf : MonoOn P b64 a f) : MonoOn P x80 a f :=
  ⟨fun x hx => In_b64_x80 (hf.type x hx), hf.mono⟩

end MonoOn

theorem Increasing.on {f : Fmt → Fl → Fl} (h : Increasing f) {F : Fmt} (hF : F = b64 ∨ F = x80) : MonoOn (Fl.FinIn F) F false (f F) :=
  ⟨h.type F hF, h.mono F hF⟩

theorem Decreasing.on {f : Fmt → Fl → Fl} (h : Decreasing f) {F : Fmt} (hF : F = b64 ∨ F = x80) : MonoOn (Fl.FinIn F) F true (f F) :=
  ⟨h.type F hF, h.anti F hF⟩

theorem X3 : x80 = b32 ∨ x80 = b64 ∨ x80 = x80 := Or.inr (Or.inr rfl)
theorem B3 : b64 = b32 ∨ b64 = b64 ∨ b64 = x80 := Or.inr (Or.inl rfl)
theorem X2 : x80 = b64 ∨ x80 = x80 := Or.inr rfl
theorem B2 : b64 = b64 ∨ b64 = x80 := Or.inl rfl

theorem mono_add (p : ℚ) (hp : p ≠ 0) : MonoOn (Fl.In x80) x80 false (fun x => Fl.add x80 x (.num p)) :=
  ⟨fun _ _ => Fl.add_type X3, fun _ _ hx hy h _ _ => Fl.add_num_le X3 hp hx.ne hy.ne h⟩

theorem mono_mul (p : ℚ) (hp : 0 < p) : MonoOn (Fl.In x80) x80 false (fun x => Fl.mul x80 (.num p) x) :=
  ⟨fun _ _ => Fl.mul_type X3 _ _, fun _ _ hx hy h _ _ => Fl.mul_pos_le X3 hp hx.ne hy.ne h⟩

theorem mono_div (p : ℚ) (hp : 0 < p) : MonoOn (Fl.In x80) x80 false (fun x => Fl.div x80 x (.num p)) :=
  ⟨fun _ _ => Fl.div_type X3 _ _, fun _ _ hx hy h _ _ => Fl.div_pos_le X3 hp hx.ne hy.ne h⟩

theorem mono_cast : MonoOn (Fl.In x80) b64 false (Fl.cast b64) :=
  ⟨fun _ _ => Fl.cast_type B3 _, fun _ _ hx hy h _ _ => Fl.cast_le B3 hx.ne hy.ne h⟩

theorem mono_recip_pos {F : Fmt} (hF : F = b64 ∨ F = x80) :
    MonoOn (fun x => x.In F ∧ Fl.lt (.zero false) x = true) F true (fun x => Fl.div F (.num 1) x) :=
  ⟨fun _ _ => Fl.div_type (std3 hF) _ _, fun _ _ hx hy h _ _ => Fl.one_div_pos (std3 hF) hx.1.ne hy.1.ne h hx.2⟩

theorem mono_recip_neg {F : Fmt} (hF : F = b64 ∨ F = x80) :
    MonoOn (fun x => x.In F ∧ Fl.lt x (.zero false) = true) F true (fun x => Fl.div F (.num 1) x) :=
  ⟨fun _ _ => Fl.div_type (std3 hF) _ _, fun _ _ hx hy h _ _ => Fl.one_div_neg' (std3 hF) hx.1.ne hy.1.ne h hy.2⟩

theorem pi_pos_num : ∃ p : ℚ, PI = .num p ∧ 0 < p := by
  refine ⟨_, rfl, ?_⟩; decide +kernel
theorem lbe_pos_num : ∃ p : ℚ, LB_E = .num p ∧ 0 < p := by
  refine ⟨_, rfl, ?_⟩; decide +kernel
theorem lge_pos_num : ∃ p : ℚ, LG_E = .num p ∧ 0 < p := by
  refine ⟨_, rfl, ?_⟩; decide +kernel

theorem sub_one_eq (x : Fl) : Fl.sub x80 x (.num 1) = Fl.add x80 x (.num (-1)) := rfl

/-- `f` followed by an increasing operation. -/
theorem MonoOn.post {P : Fl → Prop} {H : Fmt} {a : Bool} {f g : Fl → Fl} (hf : MonoOn P x80 a f) (hg : MonoOn (Fl.In x80) H false g)
    (hn : g .nan = .nan) : MonoOn P H a (fun x => g (f x)) := by
  have := hg.comp hf hn (fun x hx _ => hf.type x hx)
  rwa [Bool.xor_false] at this

theorem MonoOn.cast {P : Fl → Prop} {a : Bool} {f : Fl → Fl} (hf : MonoOn P x80 a f) : MonoOn P b64 a (fun x => Fl.cast b64 (f x)) :=
  hf.post mono_cast rfl

theorem MonoOn.overPi {P : Fl → Prop} {a : Bool} {f : Fl → Fl} (hf : MonoOn P x80 a f) : MonoOn P x80 a (fun x => Fl.div x80 (f x) PI) := by
  obtain ⟨p, hp, h0⟩ := pi_pos_num
  rw [hp]; exact hf.post (mono_div p h0) rfl

theorem evl_inc {L : Libm} (hM : L.Monotone) {u : UFun} (hu : u.isIncreasing = true) : MonoOn (Fl.FinIn x80) x80 false (u.evl L) := by
  obtain ⟨pb, hb, b0⟩ := lbe_pos_num
  obtain ⟨pg, hg, g0⟩ := lge_pos_num
  cases u <;> first | (cases hu; done) | skip
  · exact hM.pow10.on X2
  · exact (hM.pow10.on X2).post (mono_add (-1) (by norm_num)) rfl
  · exact hM.exp2.on X2
  · exact (hM.exp2.on X2).post (mono_add (-1) (by norm_num)) rfl
  · exact hM.exp.on X2
  · exact hM.expm1.on X2
  · exact hM.log.on X2
  · exact hM.log1p.on X2
  · exact hM.log2.on X2
  · show MonoOn _ _ _ (fun f => Fl.mul x80 LB_E (L.log1p x80 f))
    rw [hb]; exact (hM.log1p.on X2).post (mono_mul pb b0) rfl
  · exact hM.log10.on X2
  · show MonoOn _ _ _ (fun f => Fl.mul x80 LG_E (L.log1p x80 f))
    rw [hg]; exact (hM.log1p.on X2).post (mono_mul pg g0) rfl
  · exact hM.asin.on X2
  · exact hM.atan.on X2
  · exact (hM.asin.on X2).overPi
  · exact (hM.atan.on X2).overPi
  · exact hM.sinh.on X2
  · exact hM.tanh.on X2
  · exact hM.asinh.on X2
  · exact hM.acosh.on X2
  · exact hM.atanh.on X2

theorem fin_up {x : Fl} (h : x.FinIn b64) : x.FinIn x80 := ⟨In_b64_x80 h.1, h.2⟩

theorem evd_inc {L : Libm} (hM : L.Monotone) {u : UFun} (hu : u.isIncreasing = true) : MonoOn (Fl.FinIn b64) b64 false (u.evd L) := by
  have c : MonoOn (Fl.FinIn b64) b64 false (fun x => Fl.cast b64 (u.evl L x)) := ((evl_inc hM hu).restrict fun _ => fin_up).cast
  cases u <;> first | (cases hu; done) | exact c | skip
  · exact hM.exp2.on B2
  · exact hM.exp.on B2
  · exact hM.expm1.on B2
  · exact hM.log.on B2
  · exact hM.log1p.on B2
  · exact hM.log2.on B2
  · exact hM.log10.on B2
  · exact hM.asin.on B2
  · exact hM.atan.on B2
  · exact hM.sinh.on B2
  · exact hM.tanh.on B2
  · exact hM.asinh.on B2
  · exact hM.acosh.on B2
  · exact hM.atanh.on B2

theorem ev_inc {L : Libm} (hM : L.Monotone) {u : UFun} (hu : u.isIncreasing = true) {F : Fmt} (hF : F = b64 ∨ F = x80) :
    MonoOn (Fl.FinIn F) F false (u.ev L F) := by
  rcases hF with rfl | rfl
  · exact (evd_inc hM hu).congr fun x _ => ev_b64 L u x
  · exact (evl_inc hM hu).congr fun x _ => ev_x80 L u x

theorem ev_dec {L : Libm} (hM : L.Monotone) {u : UFun} (hu : u.isDecreasing = true) {F : Fmt} (hF : F = b64 ∨ F = x80) :
    MonoOn (Fl.FinIn F) F true (u.ev L F) := by
  rcases hF with rfl | rfl
  · refine MonoOn.congr ?_ fun x _ => ev_b64 L u x
    cases u <;> first | (cases hu; done) | skip
    · exact hM.acos.on B2
    · exact (((hM.acos.on X2).overPi).restrict fun _ => fin_up).cast
  · refine MonoOn.congr ?_ fun x _ => ev_x80 L u x
    cases u <;> first | (cases hu; done) | skip
    · exact hM.acos.on X2
    · exact (hM.acos.on X2).overPi

/-! ## The branches -/

/-- A positive (negative) argument. -/
def PosArg (F : Fmt) (x : Fl) : Prop := x.In F ∧ ∃ q, x.Is q ∧ (2 : ℚ) ^ (-300 : ℤ) ≤ q ∧ q ≤ (2 : ℚ) ^ (300 : ℤ)
def NegArg (F : Fmt) (x : Fl) : Prop := x.In F ∧ ∃ q, x.Is q ∧ (2 : ℚ) ^ (-300 : ℤ) ≤ -q ∧ -q ≤ (2 : ℚ) ^ (300 : ℤ)
/-- One of the two. -/
def SArg (s : Bool) (F : Fmt) (x : Fl) : Prop := bif s then NegArg F x else PosArg F x

/-- `x` is positive (negative). -/
def Side (s : Bool) (F : Fmt) (x : Fl) : Prop := x.In F ∧ (bif s then Fl.lt x (.zero false) else Fl.lt (.zero false) x) = true

theorem SArg.cases {s : Bool} {F : Fmt} {x : Fl} (h : SArg s F x) :
    ∃ q, q ≠ 0 ∧ x = .num q ∧ F.In q ∧ (q < 0 ↔ s = true) ∧ (2 : ℚ) ^ (-300 : ℤ) ≤ |q| ∧ |q| ≤ (2 : ℚ) ^ (300 : ℤ) := by
  have p : (0 : ℚ) < (2 : ℚ) ^ (-300 : ℤ) := by positivity
  cases s
  · obtain ⟨h1, q, h2, h3, h4⟩ : PosArg F x := h
    have hq : 0 < q := by
      refine lt_of_lt_of_le ?_ h3; positivity
    have e := h2.eq_num hq.ne'
    subst e
    exact ⟨q, hq.ne', rfl, h1.2, by simp [hq.le], by rw [abs_of_pos hq]; exact h3, by rw [abs_of_pos hq]; exact h4⟩
  · obtain ⟨h1, q, h2, h3, h4⟩ : NegArg F x := h
    have hq : q < 0 := by
      have : 0 < -q := by refine lt_of_lt_of_le ?_ h3; positivity
      linarith
    have e := h2.eq_num hq.ne
    subst e
    exact ⟨q, hq.ne, rfl, h1.2, by simp [hq], by rw [abs_of_neg hq]; exact h3, by rw [abs_of_neg hq]; exact h4⟩

theorem SArg.fin {s : Bool} {F : Fmt} {x : Fl} (h : SArg s F x) : x.FinIn F := by
  obtain ⟨q, h0, rfl, hi, -⟩ := h.cases
  exact ⟨⟨h0, hi⟩, rfl⟩

theorem SArg.up {s : Bool} {x : Fl} (h : SArg s b64 x) : SArg s x80 x := by
  cases s
  · exact ⟨In_b64_x80 h.1, h.2⟩
  · exact ⟨In_b64_x80 h.1, h.2⟩

theorem side_num {s : Bool} {F : Fmt} {q : ℚ} (h0 : q ≠ 0) (hi : F.In q) (hs : q < 0 ↔ s = true) : Side s F (.num q) := by
  refine ⟨⟨h0, hi⟩, ?_⟩
  cases s
  · have : 0 < q := lt_of_le_of_ne (not_lt.mp fun h => by simpa using hs.mp h) h0.symm
    exact decide_eq_true this
  · exact decide_eq_true (hs.mpr rfl)

theorem SArg.side {s : Bool} {F : Fmt} {x : Fl} (h : SArg s F x) : Side s F x := by
  obtain ⟨q, h0, rfl, hi, hs, -⟩ := h.cases
  exact side_num h0 hi hs

theorem mono_recip (s : Bool) {F : Fmt} (hF : F = b64 ∨ F = x80) : MonoOn (Side s F) F true (fun x => Fl.div F (.num 1) x) := by
  cases s
  · exact mono_recip_pos hF
  · exact mono_recip_neg hF

/-- Rounding of a number of moderate size. -/
theorem round_moderate {F : Fmt} (hF : F = b64 ∨ F = x80) (z : Bool) {q : ℚ} (h : |q| ≤ (2 : ℚ) ^ (300 : ℤ)) :
    ∃ r, (Fl.round F z q).Is r ∧ |r| ≤ (2 : ℚ) ^ (300 : ℤ) := by
  have hp := std_prec (std3 hF)
  have hr : |F.rq q| ≤ (2 : ℚ) ^ (300 : ℤ) := F.abs_rq_le hp (Fmt.Rep.zpow hp (by rcases hF with rfl | rfl <;> decide)) h
  refine ⟨_, Fl.Is.round z (lt_of_le_of_lt hr ?_), hr⟩
  apply zpow_lt_zpow_right₀ (by norm_num)
  rcases hF with rfl | rfl <;> decide

theorem recip_fin {s : Bool} {x : Fl} (h : SArg s x80 x) :
    (Fl.div x80 (.num 1) x).FinIn x80 ∧ (Fl.cast b64 (Fl.div x80 (.num 1) x)).FinIn b64 := by
  obtain ⟨q, h0, rfl, hi, hs, h1, h2⟩ := h.cases
  have e : Fl.div x80 (.num 1) (.num q) = Fl.round x80 _ (1 / q) := Fl.div_eq (a := 1) (Fl.Is.num (by norm_num)) (Fl.Is.num h0) h0
  have hb : |1 / q| ≤ (2 : ℚ) ^ (300 : ℤ) := by
    rw [abs_div, abs_one, div_le_iff₀ (abs_pos.mpr h0)]
    have e1 : (2 : ℚ) ^ (300 : ℤ) * (2 : ℚ) ^ (-300 : ℤ) = 1 := by rw [← zpow_add₀ (by norm_num)]; norm_num
    rw [← e1]
    exact mul_le_mul_of_nonneg_left h1 (by positivity)
  obtain ⟨r, h3, h4⟩ := round_moderate X2 (xor (Fl.num 1).sgn (Fl.num q).sgn) hb
  rw [e]
  refine ⟨⟨Fl.round_type X3 _ _, h3.isfinite⟩, Fl.cast_type B3 _, ?_⟩
  obtain ⟨z, e2⟩ := Fl.cast_is (F := b64) h3
  rw [e2]
  obtain ⟨r', h5, -⟩ := round_moderate B2 z h4
  exact h5.isfinite

/-- A function of the reciprocal. -/
theorem MonoOn.recip {a : Bool} {f : Fl → Fl} (hf : MonoOn (Fl.FinIn x80) x80 a f) (hn : f .nan = .nan) (s : Bool) :
    MonoOn (SArg s x80) x80 (!a) (fun x => f (Fl.div x80 (.num 1) x)) := by
  have := hf.comp ((mono_recip s X2).restrict fun _ h => SArg.side h) hn fun x hx _ => (recip_fin hx).1
  rwa [Bool.true_xor] at this

theorem MonoOn.recip64 {a : Bool} {f : Fl → Fl} (hf : MonoOn (Fl.FinIn b64) b64 a f) (hn : f .nan = .nan) (s : Bool) :
    MonoOn (SArg s x80) x80 (!a) (fun x => f (Fl.cast b64 (Fl.div x80 (.num 1) x))) := by
  have := hf.comp ((mono_recip s X2).restrict fun _ h => SArg.side h).cast hn fun x hx _ => (recip_fin hx).2
  rw [Bool.true_xor] at this
  exact this.up

theorem sinh_side {L : Libm} (hL : L.Conforming) {F : Fmt} (hF : F = b64 ∨ F = x80) {s : Bool} {x : Fl} (h : SArg s F x) :
    Side s F (L.sinh F x) := by
  obtain ⟨q, h0, rfl, hi, hs, -⟩ := h.cases
  rcases hL.hyperbolics.sinh F hF q h0 hi with e | ⟨z, e, iz, hz, sz⟩
  · rw [e]
    refine ⟨trivial, ?_⟩
    cases s
    · have : ¬ q < 0 := fun h => by simpa using hs.mp h
      simp [this, Fl.lt]
    · have := hs.mpr rfl
      simp [this, Fl.lt]
  · rw [e]
    have z0 : z ≠ 0 := by
      rintro rfl
      rw [abs_zero] at hz
      have := abs_pos.mpr h0; linarith
    exact side_num z0 iz (sz.trans hs)

theorem tanh_side {L : Libm} (hL : L.Conforming) {F : Fmt} (hF : F = b64 ∨ F = x80) {s : Bool} {x : Fl} (h : SArg s F x) :
    Side s F (L.tanh F x) := by
  obtain ⟨q, h0, rfl, hi, hs, h1, -⟩ := h.cases
  obtain ⟨z, e, iz, hz, -, sz⟩ := hL.hyperbolics.tanh F hF q h1 hi
  rw [e]
  have z0 : z ≠ 0 := by
    rintro rfl
    rw [abs_zero] at hz
    have : 0 < min |q| 1 := lt_min (abs_pos.mpr h0) one_pos
    linarith
  exact side_num z0 iz (sz.trans hs)

theorem cosh_side {L : Libm} (hL : L.Conforming) {F : Fmt} (hF : F = b64 ∨ F = x80) {s : Bool} {x : Fl} (h : SArg s F x) :
    Side false F (L.cosh F x) := by
  obtain ⟨q, h0, rfl, hi, -⟩ := h.cases
  rcases hL.hyperbolics.cosh F hF _ q (Fl.Is.num h0) hi with e | ⟨z, e, iz, hz⟩
  · rw [e]; exact ⟨trivial, rfl⟩
  · rw [e]
    exact side_num (by linarith) iz ⟨fun h => by linarith, fun h => by cases h⟩

theorem cosh_mono {L : Libm} (hM : L.Monotone) (s : Bool) {F : Fmt} (hF : F = b64 ∨ F = x80) : MonoOn (SArg s F) F s (L.cosh F) := by
  refine ⟨fun x hx => hM.cosh_type F hF x hx.fin, fun x y hx hy h _ _ => ?_⟩
  obtain ⟨p, p0, ep, -, ps, -⟩ := hx.cases
  obtain ⟨q, q0, eq, -, qs, -⟩ := hy.cases
  cases s
  · refine hM.cosh_pos F hF x y hx.fin hy.fin ?_ h
    rw [ep, Fl.le_is (Fl.Is.zero false) (Fl.Is.num p0)]
    exact not_lt.mp fun h => by simpa using ps.mp h
  · refine hM.cosh_neg F hF x y hx.fin hy.fin h ?_
    rw [eq, Fl.le_is (Fl.Is.num q0) (Fl.Is.zero false)]
    exact (qs.mpr rfl).le

theorem recip_nan (F : Fmt) : Fl.div F (.num 1) .nan = .nan := rfl

/-- The branch functions: `u` and its direction on the side `s`. -/
theorem evl_branch {L : Libm} (hL : L.Conforming) (hM : L.Monotone) (s : Bool) {u : UFun} :
    ((bif s then u.incNeg else u.incPos) = true → MonoOn (SArg s x80) x80 false (u.evl L)) ∧
    ((bif s then u.decNeg else u.decPos) = true → MonoOn (SArg s x80) x80 true (u.evl L)) := by
  have N := hL.nans
  have whole : u.isIncreasing = true → MonoOn (SArg s x80) x80 false (u.evl L) := fun h => (evl_inc hM h).restrict fun _ h => h.fin
  have whole' : u.isDecreasing = true → MonoOn (SArg s x80) x80 true (u.evl L) := fun h =>
    ((ev_dec hM h X2).congr (g := u.evl L) fun x _ => (ev_x80 L u x).symm).restrict fun _ h => h.fin
  have ac := (hM.acos.on X2).recip (N.acos x80) s
  have as := (hM.asin.on X2).recip (N.asin x80) s
  have at' := (hM.atan.on X2).recip (N.atan x80) s
  have sh := (mono_recip s X2).comp ((hM.sinh.on X2).restrict fun _ (h : SArg s x80 _) => h.fin) (recip_nan _)
    fun x hx _ => sinh_side hL X2 hx
  have th := (mono_recip s X2).comp ((hM.tanh.on X2).restrict fun _ (h : SArg s x80 _) => h.fin) (recip_nan _)
    fun x hx _ => tanh_side hL X2 hx
  have ch := (mono_recip false X2).comp (cosh_mono hM s X2) (recip_nan _) fun x hx _ => cosh_side hL X2 hx
  have ash := (hM.asinh.on B2).recip64 (N.asinh b64) s
  have ath := (hM.atanh.on B2).recip64 (N.atanh b64) s
  have ach := (hM.acosh.on X2).recip (N.acosh x80) s
  have le0 : ∀ {x : Fl}, SArg s x80 x → Fl.le (.zero false) x = !s := by
    intro x hx
    obtain ⟨q, h0, rfl, -, hs, -⟩ := hx.cases
    rw [Bool.eq_iff_iff, Fl.le_is (Fl.Is.zero false) (Fl.Is.num h0), ← not_lt, hs]
    cases s <;> simp
  obtain ⟨pp, hpi, p0⟩ := pi_pos_num
  constructor
  · intro hu
    cases u <;> first | (exact whole rfl) | (cases s <;> (cases hu; done)) | skip
    · exact ac
    · exact ac.overPi
    · cases s
      · exact cosh_mono hM false X2
      · cases hu
    · cases s
      · cases hu
      · exact ch
  · intro hu
    cases u <;> first | (exact whole' rfl) | (cases s <;> (cases hu; done)) | skip
    · exact as
    · show MonoOn _ _ _ (arccotl L)
      cases s
      · refine at'.congr fun x hx => ?_
        unfold arccotl; rw [le0 hx]; rfl
      · refine (at'.post (mono_add pp p0.ne') rfl).congr fun x hx => ?_
        unfold arccotl; rw [le0 hx, hpi]; rfl
    · exact as.overPi
    · show MonoOn _ _ _ (arccotOverPil L)
      cases s
      · refine at'.overPi.congr fun x hx => ?_
        unfold arccotOverPil; rw [le0 hx]; rfl
      · refine (at'.overPi.post (mono_add 1 (by norm_num)) rfl).congr fun x hx => ?_
        unfold arccotOverPil; rw [le0 hx]; rfl
    · cases s
      · cases hu
      · exact cosh_mono hM true X2
    · exact sh
    · cases s
      · exact ch
      · cases hu
    · exact th
    · exact ash
    · exact ach
    · exact ath

theorem ev_branch {L : Libm} (hL : L.Conforming) (hM : L.Monotone) (s : Bool) {u : UFun} {F : Fmt} (hF : F = b64 ∨ F = x80) :
    ((bif s then u.incNeg else u.incPos) = true → MonoOn (SArg s F) F false (u.ev L F)) ∧
    ((bif s then u.decNeg else u.decPos) = true → MonoOn (SArg s F) F true (u.ev L F)) := by
  obtain ⟨h1, h2⟩ := evl_branch hL hM s (u := u)
  have ch := (mono_recip false B2).comp (cosh_mono hM s B2) (recip_nan _) fun x hx _ => cosh_side hL B2 hx
  rcases hF with rfl | rfl
  · have c : ∀ {a}, MonoOn (SArg s x80) x80 a (u.evl L) → MonoOn (SArg s b64) b64 a (fun x => Fl.cast b64 (u.evl L x)) :=
      fun h => (h.restrict fun _ h => SArg.up h).cast
    constructor
    · intro hu
      by_cases hw : u.isIncreasing = true
      · exact (ev_inc hM hw B2).restrict fun _ h => h.fin
      refine MonoOn.congr ?_ fun x _ => ev_b64 L u x
      have c' := c (h1 hu)
      cases u <;> first | (exact absurd rfl hw) | (exact c') | (cases s <;> (cases hu; done)) | skip
      · cases s
        · exact cosh_mono hM false B2
        · cases hu
      · cases s
        · cases hu
        · exact ch
    · intro hu
      by_cases hw : u.isDecreasing = true
      · exact (ev_dec hM hw B2).restrict fun _ h => h.fin
      refine MonoOn.congr ?_ fun x _ => ev_b64 L u x
      have c' := c (h2 hu)
      cases u <;> first | (exact absurd rfl hw) | (exact c') | (cases s <;> (cases hu; done)) | skip
      · cases s
        · cases hu
        · exact cosh_mono hM true B2
      · cases s
        · exact ch
        · cases hu
  · exact ⟨fun h => (h1 h).congr fun x _ => ev_x80 L u x, fun h => (h2 h).congr fun x _ => ev_x80 L u x⟩

end Takum
