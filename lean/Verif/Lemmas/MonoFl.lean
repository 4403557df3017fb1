import Verif.MonoSpec
import Verif.Lemmas.Symmetry

/-! # The order of floats and the monotone float operations -/

namespace Takum

namespace Fl

/-- `x <= y` for values of a type. -/
theorem le_iff {x y : Fl} (hx : x ≠ .num 0) (hy : y ≠ .num 0) :
    le x y = true ↔ x ≠ .nan ∧ y ≠ .nan ∧ (x = .inf true ∨ y = .inf false ∨ ∃ a b, x.Is a ∧ y.Is b ∧ a ≤ b) := by
  have n0 : ∀ s q, ¬ Is (.inf s) q := fun s q h => by have := h.isfinite; cases this
  have n1 : ∀ q, ¬ Is .nan q := fun q h => by have := h.isfinite; cases this
  have fin : ∀ {x y : Fl} {a b : ℚ}, x.Is a → y.Is b → (le x y = true ↔ a ≤ b) := by
    intro x y a b ha hb
    unfold le
    rw [Bool.or_eq_true, lt_iff ha hb, eq_iff ha hb, le_iff_lt_or_eq]
  have z : ∀ s, Is (.zero s) 0 := Is.zero
  have ex : ∀ {x y : Fl} {a b : ℚ}, x.Is a → y.Is b → ((∃ a b, x.Is a ∧ y.Is b ∧ a ≤ b) ↔ a ≤ b) := by
    intro x y a b ha hb
    exact ⟨fun ⟨a', b', h1, h2, h3⟩ => by rw [ha.unique h1, hb.unique h2]; exact h3, fun h => ⟨a, b, ha, hb, h⟩⟩
  have m : ∀ {q : ℚ}, Fl.num q ≠ .num 0 → Is (.num q) q := fun h => Is.num (fun e => h (by rw [e]))
  cases x with
  | nan => simp [le, lt, eq]
  | inf s => cases y with
    | nan => cases s <;> simp [le, lt, eq]
    | inf t => cases s <;> cases t <;> simp [le, lt, eq, n0]
    | zero t => cases s <;> simp [le, lt, eq, n0]
    | num q => cases s <;> simp [le, lt, eq, n0]
  | zero s => cases y with
    | nan => simp [le, lt, eq]
    | inf t => cases t <;> simp [le, lt, eq, n0]
    | zero t => rw [fin (z s) (z t), ex (z s) (z t)]; simp
    | num q => rw [fin (z s) (m hy), ex (z s) (m hy)]; simp
  | num p => cases y with
    | nan => simp [le, lt, eq]
    | inf t => cases t <;> simp [le, lt, eq, n0]
    | zero t => rw [fin (m hx) (z t), ex (m hx) (z t)]; simp
    | num q => rw [fin (m hx) (m hy), ex (m hx) (m hy)]; simp

theorem le_is {x y : Fl} {a b : ℚ} (ha : x.Is a) (hb : y.Is b) : le x y = true ↔ a ≤ b := by
  unfold le
  rw [Bool.or_eq_true, lt_iff ha hb, eq_iff ha hb, le_iff_lt_or_eq]

theorem Is.ne {x : Fl} {a : ℚ} (h : x.Is a) : x ≠ .num 0 := by
  rintro rfl
  rcases h.cases with ⟨h0, h⟩ | ⟨-, s, h⟩
  · rw [Fl.num.injEq] at h; exact h0 h.symm
  · cases h

theorem round_ne_zero (F : Fmt) (z : Bool) (q : ℚ) : round F z q ≠ .num 0 := by
  unfold round mk; split_ifs <;> simp_all

theorem round_ne_nan (F : Fmt) (z : Bool) (q : ℚ) : round F z q ≠ .nan := by
  unfold round mk; split_ifs <;> simp_all

/-- What rounding returns. -/
theorem round_cases {F : Fmt} (hF : F = b32 ∨ F = b64 ∨ F = x80) (z : Bool) (q : ℚ) :
    (q < 0 ∧ F.rq q ≤ -(2 : ℚ) ^ F.emax ∧ round F z q = .inf true) ∨ (0 < q ∧ (2 : ℚ) ^ F.emax ≤ F.rq q ∧ round F z q = .inf false) ∨
      (|F.rq q| < (2 : ℚ) ^ F.emax ∧ (round F z q).Is (F.rq q)) := by
  have hp := std_prec hF
  have e0 : F.rq (0 : ℚ) = 0 := F.rq_of_rep (Fmt.Rep.zero F)
  rcases lt_or_ge |F.rq q| ((2 : ℚ) ^ F.emax) with h | h
  · exact Or.inr (Or.inr ⟨h, Is.round z h⟩)
  · have hq : q ≠ 0 := by
      rintro rfl
      rw [e0, abs_zero] at h
      exact absurd h (not_le.mpr (by positivity))
    have hr : round F z q = .inf (decide (q < 0)) := by unfold round; rw [if_neg hq, if_pos h]
    rcases lt_or_gt_of_ne hq with h0 | h0
    · left
      have := F.rq_mono hp h0.le
      rw [e0] at this
      rw [abs_of_nonpos this] at h
      exact ⟨h0, by linarith, by rw [hr]; simp [h0]⟩
    · right; left
      have := F.rq_mono hp h0.le
      rw [e0] at this
      rw [abs_of_nonneg this] at h
      exact ⟨h0, h, by rw [hr]; simp [h0.le]⟩

theorem round_le {F : Fmt} (hF : F = b32 ∨ F = b64 ∨ F = x80) (z z' : Bool) {q q' : ℚ} (h : q ≤ q') :
    le (round F z q) (round F z' q') = true := by
  have hm := F.rq_mono (std_prec hF) h
  have p : (0 : ℚ) < (2 : ℚ) ^ F.emax := by positivity
  rw [le_iff (round_ne_zero _ _ _) (round_ne_zero _ _ _)]
  refine ⟨round_ne_nan _ _ _, round_ne_nan _ _ _, ?_⟩
  rcases round_cases hF z q with ⟨-, -, e⟩ | ⟨-, h1, e⟩ | ⟨h1, i⟩
  · exact Or.inl e
  · rcases round_cases hF z' q' with ⟨-, h2, e'⟩ | ⟨-, h2, e'⟩ | ⟨h2, i'⟩
    · linarith
    · exact Or.inr (Or.inl e')
    · have := (abs_lt.mp h2).2; linarith
  · rcases round_cases hF z' q' with ⟨-, h2, e'⟩ | ⟨-, h2, e'⟩ | ⟨h2, i'⟩
    · have := (abs_lt.mp h1).1; linarith
    · exact Or.inr (Or.inl e')
    · exact Or.inr (Or.inr ⟨_, _, i, i', hm⟩)

theorem cast_is {F : Fmt} {x : Fl} {q : ℚ} (h : x.Is q) : ∃ z, cast F x = round F z q := by
  rcases h.cases with ⟨-, rfl⟩ | ⟨rfl, s, rfl⟩
  · exact ⟨false, rfl⟩
  · exact ⟨s, by simp [cast, round]⟩

theorem cast_ne_zero {F : Fmt} {x : Fl} (h : x ≠ .num 0) : cast F x ≠ .num 0 := by
  cases x with
  | num q => exact round_ne_zero _ _ _
  | _ => simp [cast]

theorem cast_nan {F : Fmt} {x : Fl} : cast F x = .nan ↔ x = .nan := by
  cases x with
  | num q => simpa [cast] using round_ne_nan F false q
  | _ => simp [cast]

theorem cast_le {F : Fmt} (hF : F = b32 ∨ F = b64 ∨ F = x80) {x y : Fl} (hx : x ≠ .num 0) (hy : y ≠ .num 0) (h : le x y = true) :
    le (cast F x) (cast F y) = true := by
  obtain ⟨n1, n2, h⟩ := (le_iff hx hy).mp h
  rcases h with rfl | rfl | ⟨a, b, ha, hb, h⟩
  · rw [le_iff (cast_ne_zero hx) (cast_ne_zero hy)]
    exact ⟨by simp [cast], by rwa [Ne, cast_nan], Or.inl rfl⟩
  · rw [le_iff (cast_ne_zero hx) (cast_ne_zero hy)]
    exact ⟨by rwa [Ne, cast_nan], by simp [cast], Or.inr (Or.inl rfl)⟩
  · obtain ⟨z, e⟩ := cast_is (F := F) ha
    obtain ⟨z', e'⟩ := cast_is (F := F) hb
    rw [e, e']; exact round_le hF z z' h

/-- A float function that is `round (g x)` on numbers, and is infinite at infinities. -/
theorem lift_le {F : Fmt} (hF : F = b32 ∨ F = b64 ∨ F = x80) {f : Fl → Fl} {g : ℚ → ℚ} (hg : Monotone g) (hi : ∀ s, f (.inf s) = .inf s)
    (hf : ∀ (x : Fl) (q : ℚ), x.Is q → ∃ z, f x = round F z (g q))
    {x y : Fl} (hx : x ≠ .num 0) (hy : y ≠ .num 0) (h : le x y = true) : le (f x) (f y) = true := by
  have nz : ∀ x : Fl, x ≠ .num 0 → x ≠ .nan → f x ≠ .num 0 ∧ f x ≠ .nan := by
    intro x h1 h2
    cases x with
    | nan => exact absurd rfl h2
    | inf s => rw [hi]; simp
    | zero s => obtain ⟨z, e⟩ := hf _ _ (Is.zero s); rw [e]; exact ⟨round_ne_zero _ _ _, round_ne_nan _ _ _⟩
    | num q => obtain ⟨z, e⟩ := hf _ q (Is.num (fun e => h1 (by rw [e]))); rw [e]; exact ⟨round_ne_zero _ _ _, round_ne_nan _ _ _⟩
  obtain ⟨n1, n2, h⟩ := (le_iff hx hy).mp h
  rcases h with rfl | rfl | ⟨a, b, ha, hb, h⟩
  · rw [le_iff (nz _ hx n1).1 (nz _ hy n2).1]
    exact ⟨(nz _ hx n1).2, (nz _ hy n2).2, Or.inl (hi _)⟩
  · rw [le_iff (nz _ hx n1).1 (nz _ hy n2).1]
    exact ⟨(nz _ hx n1).2, (nz _ hy n2).2, Or.inr (Or.inl (hi _))⟩
  · obtain ⟨z, e⟩ := hf _ _ ha
    obtain ⟨z', e'⟩ := hf _ _ hb
    rw [e, e']; exact round_le hF z z' (hg h)

theorem add_num_le {F : Fmt} (hF : F = b32 ∨ F = b64 ∨ F = x80) {p : ℚ} (hp : p ≠ 0) {x y : Fl} (hx : x ≠ .num 0) (hy : y ≠ .num 0)
    (h : le x y = true) : le (add F x (.num p)) (add F y (.num p)) = true :=
  lift_le (f := fun x => add F x (.num p)) hF (g := fun q => q + p) (fun _ _ h => by simpa using h) (fun s => rfl)
    (fun x q hq => ⟨_, add_eq hq (Is.num hp)⟩) hx hy h

theorem mul_pos_le {F : Fmt} (hF : F = b32 ∨ F = b64 ∨ F = x80) {p : ℚ} (hp : 0 < p) {x y : Fl} (hx : x ≠ .num 0) (hy : y ≠ .num 0)
    (h : le x y = true) : le (mul F (.num p) x) (mul F (.num p) y) = true :=
  lift_le (f := fun x => mul F (.num p) x) hF (g := fun q => p * q) (fun _ _ h => mul_le_mul_of_nonneg_left h hp.le)
    (fun s => by have : decide (p < 0) = false := decide_eq_false (not_lt.mpr hp.le); simp [mul, sgn, this]) (fun x q hq => ⟨_, mul_eq (Is.num hp.ne') hq⟩) hx hy h

theorem div_pos_le {F : Fmt} (hF : F = b32 ∨ F = b64 ∨ F = x80) {p : ℚ} (hp : 0 < p) {x y : Fl} (hx : x ≠ .num 0) (hy : y ≠ .num 0)
    (h : le x y = true) : le (div F x (.num p)) (div F y (.num p)) = true :=
  lift_le (f := fun x => div F x (.num p)) hF (g := fun q => q / p) (fun _ _ h => div_le_div_of_nonneg_right h hp.le)
    (fun s => by have : decide (p < 0) = false := decide_eq_false (not_lt.mpr hp.le); simp [div, sgn, this]) (fun x q hq => ⟨_, div_eq hq (Is.num hp.ne') hp.ne'⟩) hx hy h

theorem one_div_cases {F : Fmt} {x : Fl} (hx : x ≠ .num 0) (hn : x ≠ .nan) (h0 : ∀ s, x ≠ .zero s) :
    (∃ s t, x = .inf s ∧ div F (.num 1) x = .zero t) ∨ ∃ q z, q ≠ 0 ∧ x = .num q ∧ div F (.num 1) x = round F z (1 / q) := by
  cases x with
  | nan => exact absurd rfl hn
  | inf s => exact Or.inl ⟨s, _, rfl, rfl⟩
  | zero s => exact absurd rfl (h0 s)
  | num q =>
    have hq : q ≠ 0 := fun e => hx (by rw [e])
    exact Or.inr ⟨q, _, hq, rfl, div_eq (a := 1) (Is.num (by norm_num)) (Is.num hq) hq⟩

theorem round_nonneg {F : Fmt} (hF : F = b32 ∨ F = b64 ∨ F = x80) (z s : Bool) {q : ℚ} (h : 0 ≤ q) : le (.zero s) (round F z q) = true := by
  have := round_le hF s z h
  simpa [round] using this

theorem round_nonpos {F : Fmt} (hF : F = b32 ∨ F = b64 ∨ F = x80) (z s : Bool) {q : ℚ} (h : q ≤ 0) : le (round F z q) (.zero s) = true := by
  have := round_le hF z s h
  simpa [round] using this

/-- The reciprocal decreases on the positive numbers. -/
theorem one_div_pos {F : Fmt} (hF : F = b32 ∨ F = b64 ∨ F = x80) {x y : Fl} (hx : x ≠ .num 0) (hy : y ≠ .num 0)
    (h : le x y = true) (h0 : lt (.zero false) x = true) : le (div F (.num 1) y) (div F (.num 1) x) = true := by
  obtain ⟨n1, n2, h⟩ := (le_iff hx hy).mp h
  have x0 : ∀ s, x ≠ .zero s := by rintro s rfl; simp [lt, toQ] at h0
  have xi : x ≠ .inf true := by rintro rfl; simp [lt] at h0
  have xp : ∀ q, x = .num q → 0 < q := by rintro q rfl; exact of_decide_eq_true h0
  have y0 : ∀ s, y ≠ .zero s := by
    rintro s rfl
    rcases h with h | h | ⟨a, b, ha, hb, h⟩
    · exact xi h
    · cases h
    · rcases ha.cases with ⟨_, e⟩ | ⟨_, s, e⟩
      · have := xp _ e
        have := hb.unique (Is.zero s); linarith
      · exact x0 s e
  rcases one_div_cases (F := F) hx n1 x0 with ⟨s, t, rfl, e⟩ | ⟨q, z, hq, rfl, e⟩
  · rcases one_div_cases (F := F) hy n2 y0 with ⟨s', t', rfl, e'⟩ | ⟨q', z', hq', rfl, e'⟩
    · rw [e, e']; simp [le, eq, toQ]
    · rcases h with h | h | ⟨a, b, ha, hb, h⟩
      · exact absurd h xi
      · cases h
      · have := ha.isfinite; cases this
  · have hp := xp q rfl
    rw [e]
    rcases one_div_cases (F := F) hy n2 y0 with ⟨s', t', rfl, e'⟩ | ⟨q', z', hq', rfl, e'⟩
    · rw [e']; exact round_nonneg hF _ _ (by positivity)
    · rw [e']
      rcases h with h | h | ⟨a, b, ha, hb, h⟩
      · cases h
      · cases h
      · rw [ha.unique (Is.num hq), hb.unique (Is.num hq')] at h
        exact round_le hF _ _ (one_div_le_one_div_of_le hp h)

/-- The reciprocal decreases on the negative numbers. -/
theorem one_div_neg' {F : Fmt} (hF : F = b32 ∨ F = b64 ∨ F = x80) {x y : Fl} (hx : x ≠ .num 0) (hy : y ≠ .num 0)
    (h : le x y = true) (h0 : lt y (.zero false) = true) : le (div F (.num 1) y) (div F (.num 1) x) = true := by
  obtain ⟨n1, n2, h⟩ := (le_iff hx hy).mp h
  have y0 : ∀ s, y ≠ .zero s := by rintro s rfl; simp [lt, toQ] at h0
  have yi : y ≠ .inf false := by rintro rfl; simp [lt] at h0
  have yp : ∀ q, y = .num q → q < 0 := by rintro q rfl; exact of_decide_eq_true h0
  have x0 : ∀ s, x ≠ .zero s := by
    rintro s rfl
    rcases h with h | h | ⟨a, b, ha, hb, h⟩
    · cases h
    · exact yi h
    · rcases hb.cases with ⟨_, e⟩ | ⟨_, s, e⟩
      · have := yp _ e
        have := ha.unique (Is.zero s); linarith
      · exact y0 s e
  rcases one_div_cases (F := F) hy n2 y0 with ⟨s, t, rfl, e⟩ | ⟨q, z, hq, rfl, e⟩
  · rcases one_div_cases (F := F) hx n1 x0 with ⟨s', t', rfl, e'⟩ | ⟨q', z', hq', rfl, e'⟩
    · rw [e, e']; simp [le, eq, toQ]
    · rcases h with h | h | ⟨a, b, ha, hb, h⟩
      · cases h
      · exact absurd h yi
      · have := hb.isfinite; cases this
  · have hp := yp q rfl
    rw [e]
    rcases one_div_cases (F := F) hx n1 x0 with ⟨s', t', rfl, e'⟩ | ⟨q', z', hq', rfl, e'⟩
    · rw [e']; exact round_nonpos hF _ _ (by rw [one_div]; exact (inv_neg''.mpr hp).le)
    · rw [e']
      rcases h with h | h | ⟨a, b, ha, hb, h⟩
      · cases h
      · cases h
      · rw [ha.unique (Is.num hq'), hb.unique (Is.num hq)] at h
        exact round_le hF _ _ (one_div_le_one_div_of_neg_of_le hp h)

theorem add_type {F : Fmt} (hF : F = b32 ∨ F = b64 ∨ F = x80) {x y : Fl} : (add F x y).In F := by
  cases x <;> cases y <;> first | trivial | exact round_type hF _ _ | skip
  · rename_i a b; cases a <;> cases b <;> trivial

end Fl

end Takum
