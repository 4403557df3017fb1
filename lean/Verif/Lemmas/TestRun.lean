import Verif.TestSpec
import Verif.Lemmas.Lfsr
import Verif.Lemmas.Elem
import Verif.Lemmas.Defined
import Mathlib.Algebra.Order.BigOperators.Group.Finset
import Mathlib.SetTheory.Cardinal.Finite

/-!
# The loop of the test harness over a sequence of samples
-/

namespace Takum.Test
open Takum Spec

theorem R_ok_bind {α β : Type} (a : α) (f : α → R β) : ((Except.ok a : R α) >>= f) = f a := rfl
theorem R_err_bind {α β : Type} (e : Stop) (f : α → R β) : ((Except.error e : R α) >>= f) = .error e := rfl

/-- A run of the sampler: the states `σ 0, …, σ (N - 1)`. -/
structure Run (rand : ℕ → ℤ) (blk : Block) (w : W) (σ : ℕ → Sampler) (N : ℕ) : Prop where
  pos : 0 < N
  next : ∀ i, i + 1 < N → samplerNext rand blk w (σ i) = .ok (some (σ (i + 1)))
  last : samplerNext rand blk w (σ (N - 1)) = .ok none

theorem loop_ok {E : Env} {blk : Block} {k : Kind} {w : W} {σ : ℕ → Sampler} {N : ℕ}
    (h : Run (E.rand k w) blk w σ N) (c : ℕ → Bool)
    (hc : ∀ i < N, checkCase E blk (σ i).x (σ i).y k w = .ok (c i)) :
    ∀ m j f, j + m + 1 = N → f + (m + 1) < 2 ^ 64 →
      testLoop E blk k w (m + 1) (σ j) f =
        .ok (f + ∑ i ∈ Finset.Ico j N, if c i then 1 else 0) := by
  intro m
  induction m with
  | zero =>
    intro j f hj hf
    have e : j = N - 1 := by omega
    have hl := h.last
    rw [← e] at hl
    simp only [testLoop]
    rw [hc j (by omega), R_ok_bind, hl, R_ok_bind]
    have : Finset.Ico j N = {j} := by
      rw [show N = j + 1 by omega, Nat.Ico_succ_singleton]
    rw [this, Finset.sum_singleton]
    show Except.ok _ = _
    rw [Nat.mod_eq_of_lt (by split_ifs <;> omega)]
  | succ m ih =>
    intro j f hj hf
    rw [testLoop, hc j (by omega), R_ok_bind, h.next j (by omega), R_ok_bind]
    show testLoop E blk k w (m + 1) (σ (j + 1)) _ = _
    rw [Nat.mod_eq_of_lt (by split_ifs <;> omega), ih (j + 1) _ (by omega) (by split_ifs <;> omega),
      Finset.sum_eq_sum_Ico_succ_bot (by omega : j < N)]
    congr 1; ring

theorem loop_err {E : Env} {blk : Block} {k : Kind} {w : W} {σ : ℕ → Sampler} {N : ℕ}
    (h : Run (E.rand k w) blk w σ N)
    (hub : ∀ i < N, ∀ e, checkCase E blk (σ i).x (σ i).y k w = .error e → ∃ u, e = .ub u) :
    ∀ m j f, j + m + 1 = N →
      (∃ i, j ≤ i ∧ i < N ∧ ∃ e, checkCase E blk (σ i).x (σ i).y k w = .error e) →
      ∃ u, testLoop E blk k w (m + 1) (σ j) f = .error (.ub u) := by
  intro m
  induction m with
  | zero =>
    rintro j f hj ⟨i, h1, h2, e, he⟩
    obtain rfl : i = j := by omega
    obtain ⟨u, rfl⟩ := hub i h2 e he
    exact ⟨u, by rw [testLoop, he, R_err_bind]⟩
  | succ m ih =>
    rintro j f hj ⟨i, h1, h2, e, he⟩
    rcases hcj : checkCase E blk (σ j).x (σ j).y k w with e' | c
    · obtain ⟨u, rfl⟩ := hub j (by omega) e' hcj
      exact ⟨u, by rw [testLoop, hcj, R_err_bind]⟩
    · have hne : i ≠ j := by
        rintro rfl; rw [hcj] at he; cases he
      rw [testLoop, hcj, R_ok_bind, h.next j (by omega), R_ok_bind]
      exact ih (j + 1) _ (by omega) ⟨i, by omega, h2, e, he⟩

/-! ## Cases -/

theorem checkCase_ub (E : Env) (blk : Block) (a b : ℤ) (k : Kind) (w : W) (e : Stop)
    (h : checkCase E blk a b k w = .error e) : ∃ u, e = .ub u := by
  have key : ∀ {α : Type} (x : C α) e, R.of x = .error e → ∃ u, e = .ub u := by
    intro α x e h
    cases x with
    | error u => exact ⟨u, by cases h; rfl⟩
    | ok a => cases h
  have bnd : ∀ {α β : Type} (x : R α) (f : α → R β), (∀ e, x = .error e → ∃ u, e = Stop.ub u) →
      (∀ a e, f a = .error e → ∃ u, e = Stop.ub u) → ∀ e, (x >>= f) = .error e → ∃ u, e = Stop.ub u := by
    intro α β x f h1 h2 e he
    cases x with
    | error e' => cases he; exact h1 _ rfl
    | ok a => exact h2 a e he
  cases blk with
  | roundtrip f =>
    unfold checkCase at h
    simp only at h
    split at h
    · cases h
    · refine bnd _ _ (key _) (fun a e he => ?_) e h
      cases he
  | takumInt ref f cases =>
    refine bnd _ _ (bnd _ _ (key _) fun _ => key _) (fun a => bnd _ _ (key _) fun _ => key _) e h
  | unary ref f =>
    refine bnd _ _ (bnd _ _ (key _) fun _ => key _) (fun a => bnd _ _ (key _) fun _ => key _) e h
  | binary ref f =>
    refine bnd _ _ (bnd _ _ (key _) fun _ => bnd _ _ (key _) fun _ => key _)
      (fun a => bnd _ _ (key _) fun _ => key _) e h
  | uint8 ref f =>
    refine bnd _ _ (bnd _ _ (key _) fun _ => bnd _ _ (key _) (fun _ _ he => by cases he))
      (fun a => bnd _ _ (key _) (fun _ _ he => by cases he)) e h

/-- The result of a test over a run, in terms of a finite type `D` of cases that the run goes through
(`e`), of the cases that are defined and of those that are passed. -/
theorem run_report {E : Env} {blk : Block} {k : Kind} {w : W} {σ : ℕ → Sampler} {N : ℕ}
    (h : Run (E.rand k w) blk w σ N) (hN : N < 2 ^ 63) {maximum : ℕ}
    (hi : samplerInit blk w maximum = .ok (σ 0)) (ht : (σ 0).target = N)
    {D : Type} (e : Fin N ≃ D) (Def Pass : D → Prop)
    (hdef : ∀ i : Fin N, Def (e i) ↔ ∃ c, checkCase E blk (σ i).x (σ i).y k w = .ok c)
    (hpass : ∀ i : Fin N, Pass (e i) ↔ checkCase E blk (σ i).x (σ i).y k w = .ok false) :
    Reports (runType E blk k w maximum) N Def Pass := by
  classical
  obtain ⟨m, hm⟩ : ∃ m, N = m + 1 := ⟨N - 1, by have := h.pos; omega⟩
  have hmax : max 1 N = m + 1 := by omega
  constructor
  · intro hall
    have hc : ∀ i : Fin N, ∃ c, checkCase E blk (σ i).x (σ i).y k w = .ok c :=
      fun i => (hdef i).mp (hall _)
    choose c hc using hc
    set c' : ℕ → Bool := fun i => if hi : i < N then c ⟨i, hi⟩ else false with hc'
    have hl := loop_ok h c' (fun i hi => by rw [hc']; simp only [hi, dif_pos]; exact hc ⟨i, hi⟩)
      m 0 0 (by omega) (by omega)
    have hsum : (∑ i ∈ Finset.Ico 0 N, if c' i then 1 else 0) =
        Fintype.card {i : Fin N // c i = true} := by
      rw [← Finset.range_eq_Ico, Finset.sum_range (fun i => if c' i = true then 1 else 0)]
      rw [Fintype.card_subtype, Finset.card_filter]
      apply Finset.sum_congr rfl
      intro i _
      rw [hc']; simp only [i.isLt, dif_pos]
    have hpass' : ∀ i : Fin N, Pass (e i) ↔ c i = false := by
      intro i
      rw [hpass, hc i]
      constructor
      · intro hh; injection hh
      · intro hh; rw [hh]
    have hcard : Nat.card {d // Pass d} = Fintype.card {i : Fin N // c i = false} := by
      rw [← Nat.card_eq_fintype_card]
      exact (Nat.card_congr (e.subtypeEquiv (fun i => (hpass' i).symm))).symm
    have htot : Fintype.card {i : Fin N // c i = true} + Fintype.card {i : Fin N // c i = false} = N := by
      have := Fintype.card_subtype_compl (fun i : Fin N => c i = true)
      have h2 : Fintype.card {i : Fin N // ¬ c i = true} = Fintype.card {i : Fin N // c i = false} :=
        Fintype.card_congr (Equiv.subtypeEquivRight fun i => by simp)
      have h3 := Fintype.card_subtype_le (fun i : Fin N => c i = true)
      rw [Fintype.card_fin] at this h3
      omega
    have hstat : (if ∀ d, Pass d then 0 else 1) =
        if Fintype.card {i : Fin N // c i = true} > 0 then 1 else 0 := by
      by_cases hp : ∀ d, Pass d
      · rw [if_pos hp, if_neg]
        rw [gt_iff_lt, Fintype.card_pos_iff]
        rintro ⟨i, hi⟩
        have := (hpass' i).mp (hp _)
        rw [hi] at this; cases this
      · rw [if_neg hp, if_pos]
        push Not at hp
        obtain ⟨d, hd⟩ := hp
        rw [gt_iff_lt, Fintype.card_pos_iff]
        refine ⟨e.symm d, ?_⟩
        by_contra hcc
        apply hd
        have := (hpass' (e.symm d)).mpr (by simpa using hcc)
        simpa using this
    unfold runType
    rw [hi, R_ok_bind, ht, hmax, hl, R_ok_bind, hsum, zero_add]
    refine ⟨if ∀ d, Pass d then 0 else 1, ?_, by split_ifs <;> simp, by split_ifs <;> simp_all⟩
    show Except.ok _ = Except.ok _
    rw [hcard, ← hstat]
    congr 2
    omega
  · rintro ⟨d, hd⟩
    rw [← e.apply_symm_apply d, hdef] at hd
    have : ∃ i, 0 ≤ i ∧ i < N ∧ ∃ e, checkCase E blk (σ i).x (σ i).y k w = .error e := by
      refine ⟨e.symm d, Nat.zero_le _, (e.symm d).isLt, ?_⟩
      rcases hcc : checkCase E blk (σ (e.symm d)).x (σ (e.symm d)).y k w with e' | c
      · exact ⟨e', rfl⟩
      · exact absurd ⟨c, hcc⟩ hd
    obtain ⟨u, hu⟩ := loop_err h (fun i _ e => checkCase_ub E blk _ _ k w e) m 0 0 (by omega) this
    refine ⟨u, ?_⟩
    unfold runType
    rw [hi, R_ok_bind, ht, hmax, hu, R_err_bind]

end Takum.Test
