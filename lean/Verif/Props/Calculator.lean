import Verif.Model.Calculator
import Verif.Lemmas.LinArith

/-!
# The calculator: stack (C57), evaluation of a line (C65), integer marker (C64)
-/

namespace Takum.Calc
open Spec

variable {α : Type}

/-! ## Specification: a list -/

/-- A call on an abstract stack. -/
def astep (l : List α) : Op α → List α × Out α
  | .push _ x => (x :: l, .done)
  | .pop => match l with
    | [] => ([], .underflow)
    | x :: l => (l, .got x)
  | .clear => ([], .done)

/-- Calls on an abstract stack. -/
def arun (l : List α) : List (Op α) → List α × List (Out α)
  | [] => (l, [])
  | o :: os => ((arun (astep l o).1 os).1, (astep l o).2 :: (arun (astep l o).1 os).2)

/-- No allocation fails. -/
def Op.good : Op α → Bool
  | .push ok _ => ok
  | _ => true

/-- The concrete stack holds the list. -/
structure Rep (s : Stack α) (l : List α) : Prop where
  len : s.capacity = (s.data.getD []).length
  size : s.size = l.length
  le : s.size ≤ s.capacity
  get : ∀ i, i < l.length → (s.data.getD [])[i]? = some (l.reverse[i]?)

theorem Rep.init : Rep (Stack.init : Stack α) [] := ⟨rfl, rfl, le_rfl, by simp⟩

theorem Rep.clear {s : Stack α} {l : List α} (h : Rep s l) : Rep s.clear [] :=
  ⟨h.len, rfl, Nat.zero_le _, by simp⟩

theorem Rep.store {s : Stack α} {l : List α} (h : Rep s l) (x : α) (hs : s.size < s.capacity) :
    ∃ s', s.store x = .ok (s', .done) ∧ Rep s' (x :: l) := by
  obtain ⟨d, n, c⟩ := s
  have hl := h.len
  have hz := h.size
  have hg := h.get
  cases d with
  | none => simp at hl hs; omega
  | some b =>
    simp only [Option.getD_some] at hl hz hg hs
    refine ⟨_, by unfold Stack.store; simp only; rw [if_pos (by omega)], ?_, ?_, ?_, ?_⟩
    · simp [hl]
    · simp [hz]
    · simp; omega
    · intro i hi
      simp only [Option.getD_some, List.length_cons, List.reverse_cons] at hi ⊢
      rcases Nat.lt_or_ge i l.length with h' | h'
      · rw [List.getElem?_set_ne (by omega), hg i h', List.getElem?_append_left (by simpa using h')]
      · have : i = n := by omega
        subst this
        rw [List.getElem?_set_self (by omega), List.getElem?_append_right (by simp; omega)]
        simp [hz]

theorem Rep.push {s : Stack α} {l : List α} (h : Rep s l) (x : α) : ∃ s', s.push true x = .ok (s', .done) ∧ Rep s' (x :: l) := by
  unfold Stack.push
  by_cases hc : s.size = s.capacity
  · rw [if_pos hc, if_pos rfl]
    refine Rep.store (s := { s with data := some (grow s.data (s.capacity + 1)), capacity := s.capacity + 1 })
      ⟨?_, h.size, by simp only; omega, ?_⟩ x (by simp only; omega)
    · have := h.len
      simp only [Option.getD_some, grow, List.length_append, List.length_take, List.length_replicate]
      omega
    · intro i hi
      have hl := h.len
      have hz := h.size
      simp only [Option.getD_some, grow]
      rw [List.getElem?_append_left (by rw [List.length_take]; omega), List.getElem?_take_of_lt (by omega)]
      exact h.get i hi
  · rw [if_neg hc]
    exact h.store x (lt_of_le_of_ne h.le hc)

theorem Rep.pop_nil {s : Stack α} (h : Rep s []) : s.pop = .ok (s, .underflow) := by
  unfold Stack.pop; rw [if_pos (by simpa using h.size)]

theorem Rep.pop_cons {s : Stack α} {l : List α} {x : α} (h : Rep s (x :: l)) : ∃ s', s.pop = .ok (s', .got x) ∧ Rep s' l := by
  obtain ⟨d, n, c⟩ := s
  have hl := h.len
  have hz := h.size
  have hg := h.get
  have hle := h.le
  simp only [List.length_cons] at hz hg hl hle
  cases d with
  | none => simp at hl; omega
  | some b =>
    simp only [Option.getD_some] at hl hg
    have e : b[n - 1]? = some (some x) := by
      rw [hg (n - 1) (by omega)]
      simp only [List.reverse_cons]
      rw [List.getElem?_append_right (by simp; omega)]
      simp [hz]
    refine ⟨⟨some b, n - 1, c⟩, ?_, hl, by simp; omega, by simp; omega, ?_⟩
    · unfold Stack.pop
      simp only
      rw [if_neg (by omega), e]
    · intro i hi
      simp only [Option.getD_some]
      rw [hg i (by omega), List.reverse_cons, List.getElem?_append_left (by simpa using hi)]

theorem Rep.step {s : Stack α} {l : List α} (h : Rep s l) {o : Op α} (ho : o.good = true) :
    ∃ s', step s o = .ok (s', (astep l o).2) ∧ Rep s' (astep l o).1 := by
  cases o with
  | push ok x =>
    obtain rfl : ok = true := ho
    exact h.push x
  | pop =>
    cases l with
    | nil => exact ⟨s, h.pop_nil, h⟩
    | cons x l => exact h.pop_cons
  | clear => exact ⟨_, rfl, h.clear⟩

/-- C57 as long as no allocation fails: any sequence of pushes and pops on the calculator's stack is defined
and reports what a list does. -/
theorem stack_partial (ops : List (Op α)) (h : ops.all Op.good = true) :
    ∃ s, run Stack.init ops = .ok (s, (arun [] ops).2) ∧ Rep s (arun [] ops).1 := by
  have main : ∀ (ops : List (Op α)) (s : Stack α) (l : List α), Rep s l → ops.all Op.good = true →
      ∃ s', run s ops = .ok (s', (arun l ops).2) ∧ Rep s' (arun l ops).1 := by
    intro ops
    induction ops with
    | nil => intro s l hr _; exact ⟨s, rfl, hr⟩
    | cons o os ih =>
      intro s l hr hg
      rw [List.all_cons, Bool.and_eq_true] at hg
      obtain ⟨s1, e1, r1⟩ := hr.step hg.1
      obtain ⟨s2, e2, r2⟩ := ih s1 _ r1 hg.2
      refine ⟨s2, ?_, r2⟩
      show (do let (s, r) ← step s o; let (s, rs) ← run s os; return (s, r :: rs)) = _
      rw [e1]
      show (do let (s, rs) ← run s1 os; return (s, (astep l o).2 :: rs)) = _
      rw [e2]; rfl
  exact main ops _ _ Rep.init h

/-- The hypothesis is met by a history that grows, shrinks and runs into an underflow. -/
example : [Op.push true 1, .push true 2, .pop, .push true 3, .pop, .pop, .pop, .clear, .push true 4].all Op.good = true ∧
    (arun [] [Op.push true 1, .push true 2, .pop, .push true 3, .pop, .pop, .pop, .clear, .push true 4]).2 =
      [.done, .done, .got 2, .done, .got 3, .got 1, .underflow, .done, .done] := by decide

/-- C57: the push whose allocation fails reports it, in any reachable state. -/
theorem stack_failure (ops : List (Op α)) (h : ops.all Op.good = true) (x : α) :
    ∃ s r, run Stack.init (ops ++ [.push false x]) = .ok (s, (arun [] ops).2 ++ [r]) ∧ (r = .failed ∨ r = .done) ∧
      (ops = [] → r = .failed) := by
  have app : ∀ (os : List (Op α)) (s s' : Stack α) (rs : List (Out α)) (o : Op α), run s os = .ok (s', rs) →
      run s (os ++ [o]) = (do let (s, r) ← step s' o; return (s, rs ++ [r])) := by
    intro os
    induction os with
    | nil =>
      intro s s' rs o h
      obtain ⟨rfl, rfl⟩ : s = s' ∧ [] = rs := by simpa [run] using h
      show (do let (s, r) ← step s o; let (s, rs) ← (.ok (s, []) : C _); return (s, r :: rs)) = _
      rcases step s o with e | ⟨a, b⟩ <;> rfl
    | cons p os ih =>
      intro s s' rs o h
      rw [List.cons_append]
      show (do let (s, r) ← step s p; let (s, rs) ← run s (os ++ [o]); return (s, r :: rs)) = _
      change (do let (s, r) ← step s p; let (s, rs) ← run s os; return (s, r :: rs)) = _ at h
      rcases hs : step s p with e | ⟨a, b⟩
      · rw [hs] at h; cases h
      · rw [hs] at h
        change (do let (s, rs) ← run a os; return (s, b :: rs)) = _ at h
        rcases hr : run a os with e | ⟨c, d⟩
        · rw [hr] at h; cases h
        · rw [hr] at h
          obtain ⟨rfl, rfl⟩ : c = s' ∧ b :: d = rs := by
            have := Except.ok.inj h; exact ⟨(Prod.mk.inj this).1, (Prod.mk.inj this).2⟩
          show (do let (s, rs) ← run a (os ++ [o]); return (s, b :: rs)) = _
          rw [ih a c d o hr]
          rcases step c o with e | ⟨a, b⟩ <;> rfl
  obtain ⟨s, e, r⟩ := stack_partial ops h
  rw [app ops _ _ _ _ e]
  by_cases hc : s.size = s.capacity
  · have : step s (.push false x) = .ok (⟨none, s.size, s.capacity + 1⟩, .failed) := by
      show s.push false x = _; unfold Stack.push; rw [if_pos hc, if_neg (by decide)]
    rw [this]
    exact ⟨_, _, rfl, Or.inl rfl, fun _ => rfl⟩
  · obtain ⟨s', e', -⟩ := r.store x (lt_of_le_of_ne r.le hc)
    have : step s (.push false x) = .ok (s', .done) := by
      show s.push false x = _; unfold Stack.push; rw [if_neg hc]; exact e'
    rw [this]
    refine ⟨_, _, rfl, Or.inr rfl, ?_⟩
    rintro rfl
    obtain ⟨rfl, -⟩ : (Stack.init : Stack α) = s ∧ _ := by
      have := Except.ok.inj e; exact ⟨(Prod.mk.inj this).1, (Prod.mk.inj this).2⟩
    exact absurd rfl hc

/-- C57 is false after a failed allocation: `capacity` has been increased although there is no memory, so the
next line of input, which empties the stack and pushes a number, writes through the null pointer. -/
theorem stack_refuted (x y : α) (ok : Bool) :
    run Stack.init [.push false x, .clear, .push ok y] = .error .index := rfl

/-! ## C65: a line -/

/-- Arithmetic expressions over the operators. -/
inductive Expr (α : Type)
  | num (x : α)
  | un (f : α → α) (e : Expr α)
  | bin (f : α → α → Option α) (a b : Expr α)

/-- The number an expression stands for; `none` if an operator rejects its arguments. -/
def Expr.eval : Expr α → Option α
  | .num x => some x
  | .un f e => e.eval.map f
  | .bin f a b => do f (← a.eval) (← b.eval)

/-- Reverse polish notation. -/
def Expr.rpn : Expr α → List (Tok α)
  | .num x => [.num (some x)]
  | .un f e => e.rpn ++ [.un f]
  | .bin f a b => a.rpn ++ b.rpn ++ [.bin f]

/-- Reverse polish notation on lists: `none` if the rest of the line is skipped. -/
def rstep (l : List α) : Tok α → Option (List α)
  | .stop => none
  | .num x => x.map (· :: l)
  | .un f => match l with
    | a :: l => some (f a :: l)
    | _ => none
  | .bin f => match l with
    | b :: a :: l => (f a b).map (· :: l)
    | _ => none

def rrun (l : List α) : List (Tok α) → Option (List α)
  | [] => some l
  | t :: ts => (rstep l t).bind fun l => rrun l ts

theorem token_rep {s : Stack α} {l : List α} (h : Rep s l) (t : Tok α) :
    ∃ s' b, token s t = .ok (s', b) ∧ (∀ l', rstep l t = some l' → b = false ∧ Rep s' l') ∧ (rstep l t = none → b = true ∧ ∃ l', Rep s' l') := by
  cases t with
  | stop => exact ⟨s, true, rfl, by simp [rstep], fun _ => ⟨rfl, l, h⟩⟩
  | num x =>
    cases x with
    | none => exact ⟨s, true, rfl, by simp [rstep], fun _ => ⟨rfl, l, h⟩⟩
    | some x =>
      obtain ⟨s', e, r⟩ := h.push x
      refine ⟨s', false, ?_, ?_, by simp [rstep]⟩
      · unfold token; simp only; rw [e]; rfl
      · intro l' hl; simp [rstep] at hl; subst hl; exact ⟨rfl, r⟩
  | un f =>
    cases l with
    | nil => exact ⟨s, true, by unfold token; simp only; rw [h.pop_nil]; rfl, by simp [rstep], fun _ => ⟨rfl, [], h⟩⟩
    | cons a l =>
      obtain ⟨s1, e1, r1⟩ := h.pop_cons
      obtain ⟨s2, e2, r2⟩ := r1.push (f a)
      refine ⟨s2, false, ?_, ?_, by simp [rstep]⟩
      · unfold token; simp only; rw [e1]
        show (do let (s, r) ← s1.push true (f a); return (s, match r with | .failed => true | _ => false)) = _
        rw [e2]; rfl
      · intro l' hl; simp [rstep] at hl; subst hl; exact ⟨rfl, r2⟩
  | bin f =>
    cases l with
    | nil => exact ⟨s, true, by unfold token; simp only; rw [h.pop_nil]; rfl, by simp [rstep], fun _ => ⟨rfl, [], h⟩⟩
    | cons b l =>
      obtain ⟨s1, e1, r1⟩ := h.pop_cons
      cases l with
      | nil =>
        refine ⟨s1, true, ?_, by simp [rstep], fun _ => ⟨rfl, [], r1⟩⟩
        unfold token; simp only; rw [e1]
        show (do let (s, r) ← s1.pop; match r with
                  | .got a => match f a b with
                    | none => return (s, true)
                    | some x => do let (s, r) ← s.push true x; return (s, match r with | .failed => true | _ => false)
                  | _ => return (s, true) : C (Stack α × Bool)) = _
        rw [r1.pop_nil]; rfl
      | cons a l =>
        obtain ⟨s2, e2, r2⟩ := r1.pop_cons
        cases hf : f a b with
        | none =>
          refine ⟨s2, true, ?_, by simp [rstep, hf], fun _ => ⟨rfl, l, r2⟩⟩
          unfold token; simp only; rw [e1]
          show (do let (s, r) ← s1.pop; match r with
                    | .got a => match f a b with
                      | none => return (s, true)
                      | some x => do let (s, r) ← s.push true x; return (s, match r with | .failed => true | _ => false)
                    | _ => return (s, true) : C (Stack α × Bool)) = _
          rw [e2]
          show (match f a b with
                      | none => return (s2, true)
                      | some x => do let (s, r) ← s2.push true x; return (s, match r with | .failed => true | _ => false) : C (Stack α × Bool)) = _
          rw [hf]; rfl
        | some x =>
          obtain ⟨s3, e3, r3⟩ := r2.push x
          refine ⟨s3, false, ?_, ?_, by simp [rstep, hf]⟩
          · unfold token; simp only; rw [e1]
            show (do let (s, r) ← s1.pop; match r with
                    | .got a => match f a b with
                      | none => return (s, true)
                      | some x => do let (s, r) ← s.push true x; return (s, match r with | .failed => true | _ => false)
                    | _ => return (s, true) : C (Stack α × Bool)) = _
            rw [e2]
            show (match f a b with
                      | none => return (s2, true)
                      | some x => do let (s, r) ← s2.push true x; return (s, match r with | .failed => true | _ => false) : C (Stack α × Bool)) = _
            rw [hf]
            show (do let (s, r) ← s2.push true x; return (s, match r with | .failed => true | _ => false) : C (Stack α × Bool)) = _
            rw [e3]; rfl
          · intro l' hl; simp [rstep, hf] at hl; subst hl; exact ⟨rfl, r3⟩

/-- The number printed for a list. -/
def single : List α → Option α
  | [x] => some x
  | _ => none

theorem loop_rep {s : Stack α} {l : List α} (h : Rep s l) (t : Tok α) (ts : List (Tok α)) :
    ∃ s' l', loop s (t :: ts) = .ok (s', (rrun l (t :: ts)).bind single) ∧ Rep s' l' := by
  induction ts generalizing s l t with
  | nil =>
    obtain ⟨s1, b, e, h1, h2⟩ := token_rep h t
    cases hr : rstep l t with
    | none =>
      obtain ⟨rfl, l', r⟩ := h2 hr
      exact ⟨s1, l', by unfold loop; rw [e]; simp only [rrun, hr]; rfl, r⟩
    | some l1 =>
      obtain ⟨rfl, r⟩ := h1 l1 hr
      match l1, r, hr with
      | [], r, hr =>
        refine ⟨s1, [], ?_, r⟩
        unfold loop; rw [e]; simp only [rrun, hr]
        show (if s1.size ≠ 1 then (.ok (s1, none) : C _) else _) = _
        rw [if_pos (by rw [r.size]; simp)]; rfl
      | [x], r, hr =>
        obtain ⟨s2, e2, r2⟩ := r.pop_cons
        refine ⟨s2, [], ?_, r2⟩
        unfold loop; rw [e]; simp only [rrun, hr]
        show (if s1.size ≠ 1 then (.ok (s1, none) : C _) else do
          let (s, r) ← s1.pop
          return (s, match r with | .got x => some x | _ => none)) = _
        rw [if_neg (by rw [r.size]; simp), e2]; rfl
      | x :: y :: l1, r, hr =>
        refine ⟨s1, x :: y :: l1, ?_, r⟩
        unfold loop; rw [e]; simp only [rrun, hr]
        show (if s1.size ≠ 1 then (.ok (s1, none) : C _) else _) = _
        rw [if_pos (by rw [r.size]; simp)]; rfl
  | cons u us ih =>
    obtain ⟨s1, b, e, h1, h2⟩ := token_rep h t
    cases hr : rstep l t with
    | none =>
      obtain ⟨rfl, l', r⟩ := h2 hr
      exact ⟨s1, l', by unfold loop; rw [e]; simp only [rrun, hr]; rfl, r⟩
    | some l1 =>
      obtain ⟨rfl, r⟩ := h1 l1 hr
      obtain ⟨s2, l2, e2, r2⟩ := ih r u
      refine ⟨s2, l2, ?_, r2⟩
      unfold loop; rw [e]
      simp only [rrun, hr, Option.bind_some] at e2 ⊢
      exact e2

/-- What a line prints, and that it is defined, from any state that a sequence of lines can reach. -/
theorem line_rep {s : Stack α} {l : List α} (h : Rep s l) (ts : List (Tok α)) :
    ∃ s' l', line s ts = .ok (s', (rrun [] ts).bind single) ∧ Rep s' l' := by
  cases ts with
  | nil => exact ⟨s.clear, [], rfl, h.clear⟩
  | cons t ts => exact loop_rep h.clear t ts

theorem lines_rep {s : Stack α} {l : List α} (h : Rep s l) (tss : List (List (Tok α))) :
    ∃ s' l', lines s tss = .ok (s', tss.map fun ts => (rrun [] ts).bind single) ∧ Rep s' l' := by
  induction tss generalizing s l with
  | nil => exact ⟨s, l, rfl, h⟩
  | cons t ts ih =>
    obtain ⟨s1, l1, e1, r1⟩ := line_rep h t
    obtain ⟨s2, l2, e2, r2⟩ := ih r1
    refine ⟨s2, l2, ?_, r2⟩
    show (do let (s, r) ← line s t; let (s, rs) ← lines s ts; return (s, r :: rs)) = _
    rw [e1]
    show (do let (s, rs) ← lines s1 ts; return (s, (rrun [] t).bind single :: rs)) = _
    rw [e2]; rfl

theorem rrun_append (l : List α) (ts us : List (Tok α)) : rrun l (ts ++ us) = (rrun l ts).bind fun l => rrun l us := by
  induction ts generalizing l with
  | nil => rfl
  | cons t ts ih =>
    simp only [List.cons_append, rrun]
    cases rstep l t <;> simp [ih]

theorem rrun_rpn (e : Expr α) (l : List α) : rrun l e.rpn = e.eval.map (· :: l) := by
  induction e generalizing l with
  | num x => rfl
  | un f e ih =>
    rw [Expr.rpn, rrun_append, ih, Expr.eval]
    cases e.eval <;> rfl
  | bin f a b iha ihb =>
    rw [Expr.rpn, rrun_append, rrun_append, iha, Expr.eval]
    cases ha : a.eval with
    | none => rfl
    | some x =>
      simp only [Option.map_some, Option.bind_some]
      rw [ihb]
      cases hb : b.eval with
      | none => rfl
      | some y =>
        simp only [Option.map_some, Option.bind_some, rrun, rstep]
        show (Option.map _ (f x y)).bind _ = Option.map _ (f x y)
        cases f x y <;> rfl

/-- The expressions that a stack holds. -/
theorem rrun_exprs (ts : List (Tok α)) (l : List α) (h : rrun [] ts = some l) :
    ∃ es : List (Expr α), (es.reverse.map Expr.rpn).flatten = ts ∧ es.map Expr.eval = l.map some := by
  induction ts using List.reverseRecOn generalizing l with
  | nil => simp only [rrun, Option.some.injEq] at h; subst h; exact ⟨[], rfl, rfl⟩
  | append_singleton ts t ih =>
    rw [rrun_append] at h
    cases hl : rrun [] ts with
    | none => rw [hl] at h; cases h
    | some l1 =>
      rw [hl] at h
      simp only [Option.bind_some, rrun, Option.bind_fun_some] at h
      obtain ⟨es, e1, e2⟩ := ih l1 hl
      cases t with
      | stop => cases h
      | num x =>
        cases x with
        | none => cases h
        | some x =>
          simp only [rstep, Option.map_some, Option.some.injEq] at h
          subst h
          exact ⟨.num x :: es, by simp [← e1, Expr.rpn], by simp [e2, Expr.eval]⟩
      | un f =>
        match l1, e2, h with
        | a :: l1, e2, h =>
          simp only [rstep, Option.some.injEq] at h
          subst h
          match es, e1, e2 with
          | a' :: es, e1, e2 =>
            simp only [List.map_cons, List.cons.injEq] at e2
            exact ⟨.un f a' :: es, by simp [← e1, Expr.rpn], by simp [e2, Expr.eval]⟩
      | bin f =>
        match l1, e2, h with
        | [], _, h => cases h
        | [_], _, h => cases h
        | b :: a :: l1, e2, h =>
          simp only [rstep, Option.map_eq_some_iff] at h
          obtain ⟨x, hx, h⟩ := h
          subst h
          match es, e1, e2 with
          | [], _, e2 => simp at e2
          | [_], _, e2 => simp at e2
          | b' :: a' :: es, e1, e2 =>
            simp only [List.map_cons, List.cons.injEq] at e2
            refine ⟨.bin f a' b' :: es, by simp [← e1, Expr.rpn], ?_⟩
            simp only [List.map_cons, e2.2.2, Expr.eval, e2.1, e2.2.1, List.cons.injEq, and_true]
            exact hx

/-- C65: whatever was typed before, a line is evaluated without undefined behaviour; a line that is an
expression in reverse polish notation prints the number of the expression, and a line that prints a number is
such an expression with that number. -/
theorem calculator_line (before : List (List (Tok α))) (ts : List (Tok α)) :
    ∃ s rs r, lines Stack.init (before ++ [ts]) = .ok (s, rs ++ [r]) ∧ rs.length = before.length ∧
      (∀ e : Expr α, ts = e.rpn → r = e.eval) ∧
      (∀ x, r = some x → ∃ e : Expr α, ts = e.rpn ∧ e.eval = some x) := by
  obtain ⟨s, l, e, -⟩ := lines_rep (Rep.init (α := α)) (before ++ [ts])
  rw [List.map_append] at e
  refine ⟨s, _, _, e, by simp, ?_, ?_⟩
  · rintro e' rfl
    beta_reduce
    rw [rrun_rpn]
    cases e'.eval <;> rfl
  · intro x hx
    beta_reduce at hx
    cases hr : rrun [] ts with
    | none => rw [hr] at hx; cases hx
    | some l1 =>
      rw [hr] at hx
      match l1, hr, hx with
      | _ :: _ :: _, _, hx => cases hx
      | [y], hr, hx =>
        obtain rfl : y = x := Option.some.inj hx
        obtain ⟨es, h1, h2⟩ := rrun_exprs ts _ hr
        match es, h1, h2 with
        | [], _, h2 => simp at h2
        | _ :: _ :: _, _, h2 => simp at h2
        | [e], h1, h2 => exact ⟨e, by simpa using h1.symm, by simpa using h2⟩

/-- `3 4 - 2 *` is an expression, and `2 +` is not. -/
example :
    let sub : Tok ℤ := .bin fun a b => some (a - b)
    let mul : Tok ℤ := .bin fun a b => some (a * b)
    let e : Expr ℤ := .bin (fun a b => some (a * b)) (.bin (fun a b => some (a - b)) (.num 3) (.num 4)) (.num 2)
    [.num (some 3), .num (some 4), sub, .num (some 2), mul] = e.rpn ∧ e.eval = some (-2) ∧
      (lines Stack.init [[.num (some 3), sub], [.num (some 3), .num (some 4), sub, .num (some 2), mul]]).toOption.map
        (fun p => p.2) = some [none, some (-2)] := ⟨rfl, rfl, rfl⟩

/-! ## C64: integers -/

theorem integerValueLin_eq {w : W} {t : T w} {x : Fl} (h : linTo w.src w t = .ok x) :
    integerValueLin w t = do
      let i ← Fl.toInt 64 x
      return if Fl.eq x (Fl.ofInt w.src.fmt i) then i else INT64_MAX := by
  unfold integerValueLin
  cases w
  · rw [if_neg (by decide), show linToFloat64 .w8 t = .ok x from h]; rfl
  · rw [if_neg (by decide), show linToFloat64 .w16 t = .ok x from h]; rfl
  · rw [if_neg (by decide), show linToFloat64 .w32 t = .ok x from h]; rfl
  · rw [if_pos rfl, show linToExtended .w64 t = .ok x from h]; rfl

theorem toInt_is {x : Fl} {q : ℚ} (h : x.Is q) :
    Fl.toInt 64 x = if -2 ^ 63 - 1 < q ∧ q < 2 ^ 63 then .ok (Fl.trunc q) else .error .conv := by
  rcases h.cases with ⟨_, h'⟩ | ⟨h0, s, h'⟩
  · subst h'
    have : (-2 ^ (64 - 1) ≤ Fl.trunc q ∧ Fl.trunc q < 2 ^ (64 - 1)) ↔ (-2 ^ 63 - 1 < q ∧ q < 2 ^ 63) := by
      unfold Fl.trunc
      split
      · rename_i hq
        have h0 : 0 ≤ ⌊q⌋ := Int.floor_nonneg.mpr hq
        have e : ⌊q⌋ < 2 ^ (64 - 1) ↔ q < 2 ^ 63 := by rw [Int.floor_lt]; norm_num
        rw [e]
        constructor
        · rintro ⟨-, h⟩; exact ⟨by linarith, h⟩
        · rintro ⟨-, h⟩; exact ⟨by omega, h⟩
      · rename_i hq
        have h0 : ⌈q⌉ ≤ 0 := Int.ceil_le.mpr (by push_cast; linarith)
        have e : -2 ^ (64 - 1) ≤ ⌈q⌉ ↔ -2 ^ 63 - 1 < q := by
          rw [show (-2 ^ (64 - 1) ≤ ⌈q⌉) ↔ (-2 ^ 63 - 1 < ⌈q⌉) by omega, Int.lt_ceil]; norm_num
        rw [e]
        constructor
        · rintro ⟨h, -⟩; exact ⟨h, by linarith⟩
        · rintro ⟨h, -⟩; exact ⟨h, by omega⟩
    unfold Fl.toInt
    simp only [this]
  · subst h' h0
    rw [if_pos (by norm_num)]
    unfold Fl.toInt Fl.trunc; simp

theorem trunc_rep {F : Fmt} {q : ℚ} (h : F.Rep q) (he : F.emin ≤ 0) (hq : ∀ n : ℤ, q ≠ n) : F.Rep (Fl.trunc q : ℤ) := by
  obtain ⟨m, e, h1, h2, h3⟩ := h
  rcases lt_or_ge e 0 with h0 | h0
  · apply Fmt.Rep.int he
    have hm : |q| ≤ |(m : ℚ)| := by
      rw [h1, abs_mul, abs_of_pos (show (0 : ℚ) < 2 ^ e by positivity)]
      exact mul_le_of_le_one_right (abs_nonneg _) (zpow_le_one_of_nonpos₀ (by norm_num) h0.le)
    have ht : |Fl.trunc q| ≤ |m| := by
      rw [abs_le]
      have := abs_le.mp hm
      unfold Fl.trunc
      split
      · rename_i h
        have : 0 ≤ ⌊q⌋ := Int.floor_nonneg.mpr h
        refine ⟨by have := abs_nonneg m; omega, ?_⟩
        have h' : ((⌊q⌋ : ℤ) : ℚ) ≤ ((|m| : ℤ) : ℚ) := by push_cast; linarith [Int.floor_le q]
        exact_mod_cast h'
      · rename_i h
        refine ⟨?_, ?_⟩
        · have h' : ((-|m| : ℤ) : ℚ) ≤ ((⌈q⌉ : ℤ) : ℚ) := by push_cast; linarith [Int.le_ceil q]
          exact_mod_cast h'
        · exact (Int.ceil_le.mpr (by push_cast; linarith)).trans (abs_nonneg m)
    exact lt_of_le_of_lt ht h2
  · obtain ⟨k, rfl⟩ := Int.eq_ofNat_of_zero_le h0
    exact absurd (by rw [h1]; push_cast; norm_cast) (hq (m * 2 ^ k))

/-- No takum is the number that is used as a marker. -/
theorem ne_marker {w : W} (t : T w) : qv t ≠ (INT64_MAX : ℤ) := by
  intro h
  have hr : (⟨60, -400, 300⟩ : Fmt).Rep (qv t) := by
    by_cases h0 : t = 0#w.n
    · subst h0; rw [qv_zero]; exact ⟨0, 0, by simp, by simp, by simp⟩
    · rw [show qv t = lv t by unfold qv val lv; rw [if_neg h0]; rfl]
      exact (lv_in t (by cases w <;> decide) (by decide) (by decide)).1
  rw [h] at hr
  obtain ⟨m, e, h1, h2, -⟩ := hr
  unfold INT64_MAX at h1
  simp only at h2
  rcases lt_or_ge 0 e with h0 | h0
  · obtain ⟨k, rfl⟩ : ∃ k : ℕ, e = k + 1 := ⟨(e - 1).toNat, by omega⟩
    have : ((2 ^ 63 - 1 : ℤ) : ℚ) = ((m * 2 ^ k * 2 : ℤ) : ℚ) := by
      rw [h1]; push_cast; rw [zpow_add₀ (by norm_num), zpow_natCast]; ring
    have : (2 ^ 63 - 1 : ℤ) = m * 2 ^ k * 2 := by exact_mod_cast this
    omega
  · have h3 : |((2 ^ 63 - 1 : ℤ) : ℚ)| ≤ |(m : ℚ)| := by
      rw [h1, abs_mul, abs_of_pos (show (0 : ℚ) < 2 ^ e by positivity)]
      exact mul_le_of_le_one_right (abs_nonneg _) (zpow_le_one_of_nonpos₀ (by norm_num) h0)
    have h4 : |(2 ^ 63 - 1 : ℤ)| ≤ |m| := by exact_mod_cast h3
    have h5 : (2 ^ 63 - 1 : ℤ) ≤ |m| := le_trans (le_abs_self _) h4
    omega

/-- C64 for the linear types as far as it is defined: the marker of a takum that stands for an integer is the
integer, that of a takum that does not is `INT64_MAX`, and the two are not confused. -/
theorem integer_marker_partial (w : W) (t : T w) (q : ℚ) (h : linVal t = some q) (hq : -2 ^ 63 - 1 < q ∧ q < 2 ^ 63) :
    ∃ i, integerValueLin w t = .ok i ∧ (∀ n : ℤ, q = n → i = n ∧ i ≠ INT64_MAX) ∧
      ((∀ n : ℤ, q ≠ n) → i = INT64_MAX) := by
  have hn : t ≠ nar w.n := by rintro rfl; simp [linVal] at h
  obtain rfl : qv t = q := Option.some.inj ((linVal_qv hn).symm.trans h)
  obtain ⟨x, e, hx⟩ := linTo_src w hn
  rw [integerValueLin_eq e, toInt_is hx, if_pos hq]
  refine ⟨_, rfl, ?_, ?_⟩
  · intro n hn
    have ho : (Fl.ofInt w.src.fmt (Fl.trunc (qv t))).Is (qv t) := by
      have := Fl.Is.ofInt_in (F := w.src.fmt) (n := n) (by rw [← hn]; exact qv_src)
      rw [hn, Fl.trunc_int]
      exact this
    rw [if_pos ((Fl.eq_iff hx ho).mpr rfl), hn, Fl.trunc_int]
    refine ⟨rfl, ?_⟩
    rintro rfl
    exact ne_marker t hn
  · intro h'
    have hr : w.src.fmt.Rep (Fl.trunc (qv t) : ℤ) := trunc_rep qv_src.1 (by cases w <;> decide) h'
    have ho : (Fl.ofInt w.src.fmt (Fl.trunc (qv t))).Is (Fl.trunc (qv t) : ℤ) := by
      refine Fl.Is.ofInt_in ⟨hr, ?_⟩
      have := hq
      have hb : |((Fl.trunc (qv t) : ℤ) : ℚ)| ≤ 2 ^ 64 := by
        have h1 := Int.floor_le (qv t)
        have h2 := Int.lt_floor_add_one (qv t)
        have h3 := Int.le_ceil (qv t)
        have h4 := Int.ceil_lt_add_one (qv t)
        rw [abs_le]
        unfold Fl.trunc
        split <;> constructor <;> linarith
      refine lt_of_le_of_lt hb ?_
      rw [← zpow_natCast]
      exact zpow_lt_zpow_right₀ (by norm_num) (by cases w <;> decide)
    rw [if_neg]
    intro hc
    exact h' _ ((Fl.eq_iff hx ho).mp hc)

/-- Both kinds of takum exist, 17 and 17.5. -/
example : linVal (0x5220#16 : T .w16) = some 17 ∧ linVal (0x5230#16 : T .w16) = some (35 / 2) := by decide +kernel

/-- C64 is false in the linear modes: the conversion to `int64_t` is undefined exactly for NaR and for the numbers
that do not fit, for example for the result of `1 0 /`. -/
theorem integer_marker_refuted (w : W) (t : T w) :
    integerValueLin w t = .error .conv ↔ t = nar w.n ∨ ∃ q, linVal t = some q ∧ (q ≤ -2 ^ 63 - 1 ∨ 2 ^ 63 ≤ q) := by
  by_cases hn : t = nar w.n
  · subst hn
    rw [integerValueLin_eq (linTo_src_nar w)]
    exact ⟨fun _ => Or.inl rfl, fun _ => rfl⟩
  · obtain ⟨x, e, hx⟩ := linTo_src w hn
    rw [integerValueLin_eq e, toInt_is hx, linVal_qv hn]
    constructor
    · intro h
      by_cases hq : -2 ^ 63 - 1 < qv t ∧ qv t < 2 ^ 63
      · rw [if_pos hq] at h; cases h
      · refine Or.inr ⟨_, rfl, ?_⟩
        by_contra hc
        push Not at hc
        exact hq hc
    · rintro (h | ⟨q, h, hq⟩)
      · exact absurd h hn
      · obtain rfl := Option.some.inj h
        rw [if_neg (by rintro ⟨h1, h2⟩; rcases hq with h | h <;> linarith)]; rfl

end Takum.Calc
