import Verif.Props.Program

/-!
# C77: exactly when the calculator is undefined
-/

namespace Takum.Calc
open Spec Session

/-- The takum that an operator computes from the stack. -/
inductive Yields (L : Libm) (s : State) (tok : List Char) : List Val → T s.width → Prop
  | one {f a x t st} : word tok = .one f → a.as L s.kind s.width = .ok x → f.run L s.kind s.width x = .ok t → Yields L s tok (a :: st) t
  | two {f a b x y t st} : word tok = .two f → a.as L s.kind s.width = .ok x → b.as L s.kind s.width = .ok y →
      f.run L s.kind s.width x y = .ok t → Yields L s tok (b :: a :: st) t
  | power {a b x y t st} : word tok = .power → b.int = none → a.as L s.kind s.width = .ok x → b.as L s.kind s.width = .ok y →
      BFun.call L .power s.kind s.width x y = .ok t → Yields L s tok (b :: a :: st) t
  | integerPower {a b x i t st} : word tok = .power → b.int = some i → a.as L s.kind s.width = .ok x →
      integerPowerOf L s.kind s.width x (BitVec.ofInt 64 i) = .ok t → Yields L s tok (b :: a :: st) t
  | root {a b x i t st} : word tok = .root → b.int = some i → a.as L s.kind s.width = .ok x →
      rootOf L s.kind s.width x (BitVec.ofInt 64 i) = .ok t → Yields L s tok (b :: a :: st) t
  | precision {a x p t st} : word tok = .precision → a.as L s.kind s.width = .ok x → Takum.precision s.width x = .ok p →
      fromLongDouble L s.kind s.width (Fl.ofInt x80 p) = .ok t → Yields L s tok (a :: st) t

/-- The number, without its fractional part, fits into `int64_t`. -/
def FitsInt64 {n : ℕ} (t : BitVec n) : Prop := ∃ x, value .lin t = some x ∧ -2 ^ 63 - 1 < x ∧ x < 2 ^ 63

/-- The two ways to leave the defined: the absolute value of a NaR of 32 or 64 bits, and a result in a linear type that
is NaR or does not fit into `int64_t`. -/
def Fatal (L : Libm) (s : State) (tok : List Char) (st : List Val) : Prop :=
  (word tok = .one .absolute ∧ (s.width = .w32 ∨ s.width = .w64) ∧ ∃ a st', st = a :: st' ∧ a.as L s.kind s.width = .ok (nar s.width.n)) ∨
  (s.kind = .lin ∧ ∃ t, Yields L s tok st t ∧ ¬FitsInt64 t)

/-- The states and the lines that are left before each line of a session, from a state and a list of lines. -/
inductive Before (L : Libm) (lc : Libc) (s₀ : State) (ls : List (List Char)) : State → List (List Char) → Prop
  | start : Before L lc s₀ ls s₀ ls
  | line {s l rest s' out} : Before L lc s₀ ls s (l :: rest) → Session.line L lc s l = .ok (s', out) → Before L lc s₀ ls s' rest

/-- The words that are left and the stack before each word of a line, from a list of words and a stack. -/
inductive Within (L : Libm) (lc : Libc) (s : State) (ws : List (List Char)) (st₀ : List Val) : List (List Char) → List Val → Prop
  | start : Within L lc s ws st₀ ws st₀
  | word {tok toks st st'} : Within L lc s ws st₀ (tok :: toks) st → exec L lc s tok st = .ok (.go st') → Within L lc s ws st₀ toks st'

theorem not_defined_error {α : Type} {e : UB} : ¬Defined (.error e : C α) := by rintro ⟨x, h⟩; cases h

theorem result_defined (k : Kind) (w : W) (t : T w) : Defined (result k w t) ↔ (k = .lin → FitsInt64 t) := by
  cases k with
  | log => exact iff_of_true ⟨_, rfl⟩ (by rintro ⟨⟩)
  | lin =>
    unfold result FitsInt64
    cases h : value .lin t with
    | none => exact iff_of_false not_defined_error (fun hn => by simp at hn)
    | some x =>
      simp only
      split_ifs with hx
      · exact iff_of_true ⟨_, rfl⟩ (fun _ => ⟨x, rfl, hx⟩)
      · exact iff_of_false not_defined_error (fun hn => by obtain ⟨y, hy, h'⟩ := hn trivial; cases hy; exact hx h')

theorem absolute_defined (w : W) (t : T w) : Defined (absolute w t) ↔ ¬((w = .w32 ∨ w = .w64) ∧ t = nar w.n) := by
  by_cases h : t = nar w.n
  · subst h
    obtain ⟨h8, h16⟩ := absolute_nar
    obtain ⟨h32, h64⟩ := absolute_nar_refuted
    cases w
    · exact iff_of_true ⟨_, h8⟩ (by simp)
    · exact iff_of_true ⟨_, h16⟩ (by simp)
    · exact iff_of_false (by erw [h32]; exact not_defined_error) (by simp)
    · exact iff_of_false (by erw [h64]; exact not_defined_error) (by simp)
  · obtain ⟨v, e, -⟩ := absolute_value_partial w t h
    exact iff_of_true ⟨v, e⟩ (by simp [h])

/-- A word is undefined exactly in the two ways. -/
theorem exec_undefined (L : Libm) (lc : Libc) (s : State) (tok : List Char) (st : List Val) :
    ¬Defined (exec L lc s tok st) ↔ Fatal L s tok st := by
  obtain ⟨-, -, -, -, -, h6, -, -, -, -, -, h12, h13⟩ := no_undefined_behaviour L
  -- an operator that computes a takum
  have hgo : ∀ (x : C (T s.width)) st', Defined x → (word tok ≠ .one .absolute ∨ s.width = .w8 ∨ s.width = .w16 ∨
        ∀ a st'', st = a :: st'' → a.as L s.kind s.width ≠ .ok (nar s.width.n)) →
      (∀ t, Yields L s tok st t ↔ x = .ok t) →
      (¬Defined (do let t ← x; return Outcome.go ((← result s.kind s.width t) :: st') : C Outcome) ↔ Fatal L s tok st) := by
    rintro _ st' ⟨t, rfl⟩ ha hy
    have e1 : Defined (do let t ← (.ok t : C (T s.width)); return Outcome.go ((← result s.kind s.width t) :: st') : C Outcome) ↔
        Defined (result s.kind s.width t) := by
      show Defined (do let v ← result s.kind s.width t; return Outcome.go (v :: st') : C Outcome) ↔ _
      cases result s.kind s.width t with
      | error e => exact iff_of_false not_defined_error not_defined_error
      | ok v => exact iff_of_true ⟨_, rfl⟩ ⟨_, rfl⟩
    rw [e1, result_defined]
    constructor
    · intro h
      obtain ⟨h1, h2⟩ := Classical.not_imp.mp h
      exact .inr ⟨h1, t, (hy t).mpr rfl, h2⟩
    · rintro (⟨h1, h2, a, st'', h3, h4⟩ | ⟨h1, t', h2, h3⟩) h
      · rcases ha with ha | ha | ha | ha
        · exact ha h1
        · rw [ha] at h2; simp at h2
        · rw [ha] at h2; simp at h2
        · exact ha a st'' h3 h4
      · cases (hy t').mp h2
        exact h3 (h h1)
  -- a word that computes nothing
  have hno : ∀ o : Outcome, word tok ≠ .one .absolute ∨ st = [] → (∀ t, ¬Yields L s tok st t) →
      (¬Defined (.ok o : C Outcome) ↔ Fatal L s tok st) := by
    intro o ha hy
    refine iff_of_false (not_not.mpr ⟨o, rfl⟩) ?_
    rintro (⟨h1, -, a, st', h3, -⟩ | ⟨-, t, h2, -⟩)
    · rcases ha with ha | ha
      · exact ha h1
      · rw [ha] at h3; cases h3
    · exact hy t h2
  unfold exec
  cases hw : word tok with
  | register i => exact hno _ (.inl (by simp [hw])) (fun t h => by cases h <;> simp_all)
  | help => exact hno _ (.inl (by simp [hw])) (fun t h => by cases h <;> simp_all)
  | switch k w => exact hno _ (.inl (by simp [hw])) (fun t h => by cases h <;> simp_all)
  | power =>
    match st with
    | [] => exact hno _ (.inr rfl) (fun t h => by cases h)
    | [_] => exact hno _ (.inl (by simp [hw])) (fun t h => by cases h <;> simp_all)
    | b :: a :: st =>
      obtain ⟨ta, ea⟩ := as_ok L a s.kind s.width
      obtain ⟨tb, eb⟩ := as_ok L b s.kind s.width
      simp only [ea, eb, ok_bind]
      cases hb : b.int with
      | none =>
        refine hgo _ _ ((no_undefined_behaviour_elementary L s.kind s.width).2 _ _ _) (.inl (by simp [hw])) (fun t => ?_)
        constructor
        · intro h; cases h <;> simp_all
        · exact fun h => .power hw hb ea eb h
      | some i =>
        refine hgo _ _ ?_ (.inl (by simp [hw])) (fun t => ?_)
        · cases s.kind
          · exact (h12 s.width ta _).1
          · exact (h12 s.width ta _).2
        · constructor
          · intro h; cases h <;> simp_all
          · exact fun h => .integerPower hw hb ea h
  | precision =>
    match st with
    | [] => exact hno _ (.inr rfl) (fun t h => by cases h)
    | a :: st =>
      obtain ⟨ta, ea⟩ := as_ok L a s.kind s.width
      obtain ⟨p, ep⟩ := (h6 s.width ta).1
      simp only [ea, ep, ok_bind]
      refine hgo _ _ (fromLongDouble_ok L s.kind s.width _) (.inl (by simp [hw])) (fun t => ?_)
      constructor
      · intro h; cases h <;> simp_all
      · exact fun h => .precision hw ea ep h
  | root =>
    match st with
    | [] => exact hno _ (.inr rfl) (fun t h => by cases h)
    | [_] => exact hno _ (.inl (by simp [hw])) (fun t h => by cases h <;> simp_all)
    | b :: a :: st =>
      obtain ⟨ta, ea⟩ := as_ok L a s.kind s.width
      simp only [ea, ok_bind]
      cases hb : b.int with
      | none => exact hno _ (.inl (by simp [hw])) (fun t h => by cases h <;> simp_all)
      | some i =>
        refine hgo _ _ ?_ (.inl (by simp [hw])) (fun t => ?_)
        · cases s.kind
          · exact (h13 s.width ta _).1
          · exact (h13 s.width ta _).2
        · constructor
          · intro h; cases h <;> simp_all
          · exact fun h => .root hw hb ea h
  | one f =>
    match st with
    | [] => exact hno _ (.inr rfl) (fun t h => by cases h)
    | a :: st =>
      obtain ⟨ta, ea⟩ := as_ok L a s.kind s.width
      simp only [ea, ok_bind]
      have hy : ∀ t, Yields L s tok (a :: st) t ↔ f.run L s.kind s.width ta = .ok t := by
        intro t
        constructor
        · intro h; cases h <;> simp_all
        · exact fun h => .one hw ea h
      by_cases hf : f = .absolute
      · subst hf
        by_cases hd : Defined (absolute s.width ta)
        · refine hgo _ _ hd ?_ hy
          rcases not_and_or.mp ((absolute_defined s.width ta).mp hd) with h | h
          · cases h8 : s.width <;> simp_all
          · refine .inr (.inr (.inr fun a' st'' e => ?_))
            cases e; rw [ea]; intro e; exact h (Except.ok.inj e)
        · obtain ⟨h1, h2⟩ := not_not.mp (mt (absolute_defined s.width ta).mpr hd)
          refine iff_of_true ?_ (.inl ⟨hw, h1, a, st, rfl, by rw [ea, h2]⟩)
          show ¬Defined (do let t ← absolute s.width ta; return Outcome.go ((← result s.kind s.width t) :: st) : C Outcome)
          cases he : absolute s.width ta with
          | ok v => exact absurd ⟨v, he⟩ hd
          | error e => exact not_defined_error
      · exact hgo _ _ (fn1_ok L hf s.kind s.width ta) (.inl (by simp [hw, hf])) hy
  | two f =>
    match st with
    | [] => exact hno _ (.inr rfl) (fun t h => by cases h)
    | [_] => exact hno _ (.inl (by simp [hw])) (fun t h => by cases h <;> simp_all)
    | b :: a :: st =>
      obtain ⟨ta, ea⟩ := as_ok L a s.kind s.width
      obtain ⟨tb, eb⟩ := as_ok L b s.kind s.width
      simp only [ea, eb, ok_bind]
      refine hgo _ _ (fn2_ok L f s.kind s.width ta tb) (.inl (by simp [hw])) (fun t => ?_)
      constructor
      · intro h; cases h <;> simp_all
      · exact fun h => .two hw ea eb h
  | literal =>
    simp only
    cases literal lc tok with
    | none => exact hno _ (.inl (by simp [hw])) (fun t h => by cases h <;> simp_all)
    | some p =>
      obtain ⟨t, e⟩ := fromLongDouble_ok L s.kind s.width p.1
      simp only [e, ok_bind]
      exact hno _ (.inl (by simp [hw])) (fun t h => by cases h <;> simp_all)

theorem Within.head {L : Libm} {lc : Libc} {s : State} {tok : List Char} {toks : List (List Char)} {st st' : List Val}
    (e : exec L lc s tok st = .ok (.go st')) {ws : List (List Char)} {st'' : List Val} (h : Within L lc s toks st' ws st'') :
    Within L lc s (tok :: toks) st ws st'' := by
  induction h with
  | start => exact .word .start e
  | word _ e' ih => exact .word ih e'

theorem Within.cases_head {L : Libm} {lc : Libc} {s : State} {tok : List Char} {toks : List (List Char)} {st : List Val}
    {ws : List (List Char)} {st'' : List Val} (h : Within L lc s (tok :: toks) st ws st'') :
    (ws = tok :: toks ∧ st'' = st) ∨ ∃ st', exec L lc s tok st = .ok (.go st') ∧ Within L lc s toks st' ws st'' := by
  induction h with
  | start => exact .inl ⟨rfl, rfl⟩
  | word _ e' ih =>
    rcases ih with ⟨h1, h2⟩ | ⟨st', h1, h2⟩
    · cases h1; subst h2
      exact .inr ⟨_, e', .start⟩
    · exact .inr ⟨st', h1, .word h2 e'⟩

theorem Within.of_nil {L : Libm} {lc : Libc} {s : State} {st : List Val} {ws : List (List Char)} {st'' : List Val}
    (h : Within L lc s [] st ws st'') : ws = [] := by
  induction h with
  | start => rfl
  | word _ _ ih => cases ih

theorem execAll_undefined (L : Libm) (lc : Libc) (s : State) (ws : List (List Char)) (st : List Val) :
    ¬Defined (execAll L lc s ws st) ↔ ∃ tok rest st', Within L lc s ws st (tok :: rest) st' ∧ Fatal L s tok st' := by
  induction ws generalizing st with
  | nil =>
    refine iff_of_false (not_not.mpr ?_) ?_
    · match st with
      | [] => exact ⟨_, rfl⟩
      | _ :: _ :: _ => exact ⟨_, rfl⟩
      | [x] =>
        obtain ⟨v, e⟩ := shown_ok L x
        rw [execAll, e]
        exact ⟨_, rfl⟩
    · rintro ⟨tok, rest, st', h, -⟩
      cases h.of_nil
  | cons tok toks ih =>
    by_cases hd : Defined (exec L lc s tok st)
    · have hf := mt (exec_undefined L lc s tok st).mpr (not_not.mpr hd)
      obtain ⟨o, e⟩ := hd
      rw [execAll, e]
      cases o with
      | go st' =>
        refine (ih st').trans ?_
        constructor
        · rintro ⟨t, r, st'', h1, h2⟩
          exact ⟨t, r, st'', h1.head e, h2⟩
        · rintro ⟨t, r, st'', h1, h2⟩
          rcases h1.cases_head with ⟨h3, h4⟩ | ⟨st3, h3, h4⟩
          · cases h3; subst h4
            exact absurd h2 hf
          · rw [e] at h3; cases h3
            exact ⟨t, r, st'', h4, h2⟩
      | stop k w out =>
        refine iff_of_false (not_not.mpr ⟨_, rfl⟩) ?_
        rintro ⟨t, r, st'', h1, h2⟩
        rcases h1.cases_head with ⟨h3, h4⟩ | ⟨st3, h3, h4⟩
        · cases h3; subst h4
          exact hf h2
        · rw [e] at h3; cases h3
    · refine iff_of_true ?_ ⟨tok, toks, st, .start, (exec_undefined L lc s tok st).mp hd⟩
      rw [execAll]
      cases he : exec L lc s tok st with
      | ok v => exact absurd ⟨v, he⟩ hd
      | error e => exact not_defined_error

theorem line_undefined (L : Libm) (lc : Libc) (s : State) (l : List Char) :
    ¬Defined (Session.line L lc s l) ↔ ∃ tok rest st, Within L lc s (words l) [] (tok :: rest) st ∧ Fatal L s tok st := by
  unfold Session.line
  split_ifs with h
  · refine iff_of_false (not_not.mpr ⟨_, rfl⟩) ?_
    rintro ⟨tok, rest, st, h1, -⟩
    rw [h] at h1
    cases h1.of_nil
  · exact execAll_undefined L lc s (words l) []

theorem Before.head {L : Libm} {lc : Libc} {s s' : State} {l : List Char} {ls : List (List Char)} {out : List Item}
    (e : Session.line L lc s l = .ok (s', out)) {s'' : State} {rest : List (List Char)} (h : Before L lc s' ls s'' rest) :
    Before L lc s (l :: ls) s'' rest := by
  induction h with
  | start => exact .line .start e
  | line _ e' ih => exact .line ih e'

theorem Before.cases_head {L : Libm} {lc : Libc} {s : State} {l : List Char} {ls : List (List Char)}
    {s'' : State} {rest : List (List Char)} (h : Before L lc s (l :: ls) s'' rest) :
    (s'' = s ∧ rest = l :: ls) ∨ ∃ s' out, Session.line L lc s l = .ok (s', out) ∧ Before L lc s' ls s'' rest := by
  induction h with
  | start => exact .inl ⟨rfl, rfl⟩
  | line _ e' ih =>
    rcases ih with ⟨h1, h2⟩ | ⟨s', out, h1, h2⟩
    · cases h2; subst h1
      exact .inr ⟨_, _, e', .start⟩
    · exact .inr ⟨s', out, h1, .line h2 e'⟩

theorem Before.of_nil {L : Libm} {lc : Libc} {s s'' : State} {rest : List (List Char)} (h : Before L lc s [] s'' rest) : rest = [] := by
  induction h with
  | start => rfl
  | line _ _ ih => cases ih

theorem run_undefined (L : Libm) (lc : Libc) (s : State) (ls : List (List Char)) :
    ¬Defined (Session.run L lc s ls) ↔ ∃ s' l rest tok toks st, Before L lc s ls s' (l :: rest) ∧
      Within L lc s' (words l) [] (tok :: toks) st ∧ Fatal L s' tok st := by
  induction ls generalizing s with
  | nil =>
    refine iff_of_false (not_not.mpr ⟨_, rfl⟩) ?_
    rintro ⟨s', l, rest, tok, toks, st, h, -⟩
    cases h.of_nil
  | cons l ls ih =>
    rw [Session.run]
    by_cases hd : Defined (Session.line L lc s l)
    · have hf := mt (line_undefined L lc s l).mpr (not_not.mpr hd)
      obtain ⟨⟨s', out⟩, e⟩ := hd
      rw [e]
      have e1 : ¬Defined (do let (s, out) ← (.ok (s', out) : C (State × List Item)); return out ++ .prompt :: (← Session.run L lc s ls) : C (List Item)) ↔
          ¬Defined (Session.run L lc s' ls) := by
        show ¬Defined (do let r ← Session.run L lc s' ls; return out ++ .prompt :: r : C (List Item)) ↔ _
        cases Session.run L lc s' ls with
        | ok v => exact iff_of_false (not_not.mpr ⟨_, rfl⟩) (not_not.mpr ⟨_, rfl⟩)
        | error e => exact iff_of_true not_defined_error not_defined_error
      refine e1.trans ((ih s').trans ?_)
      constructor
      · rintro ⟨s2, l2, rest, tok, toks, st, h1, h2⟩
        exact ⟨s2, l2, rest, tok, toks, st, h1.head e, h2⟩
      · rintro ⟨s2, l2, rest, tok, toks, st, h1, h2, h3⟩
        rcases h1.cases_head with ⟨h4, h5⟩ | ⟨s3, out3, h4, h5⟩
        · cases h5; subst h4
          exact absurd ⟨tok, toks, st, h2, h3⟩ hf
        · rw [e] at h4; cases h4
          exact ⟨s2, l2, rest, tok, toks, st, h5, h2, h3⟩
    · obtain ⟨tok, toks, st, h1, h2⟩ := (line_undefined L lc s l).mp hd
      refine iff_of_true ?_ ⟨s, l, ls, tok, toks, st, .start, h1, h2⟩
      cases he : Session.line L lc s l with
      | ok v => exact absurd ⟨v, he⟩ hd
      | error e => exact not_defined_error

/-- C77: the program has undefined behaviour for exactly the inputs where, before some word of some line, the word is
`abs`, the type has 32 or 64 bits and the top of the stack is NaR in that type, or the type is linear and the word is an
operator whose result is NaR or does not fit into `int64_t`. -/
theorem calculator_undefined_iff (L : Libm) (hL : L.Powers) (lc : Libc) (hlc : lc.Sound) (A : Alloc) (hA : A.Sound)
    (file : List Char) (hok : ∀ s ≤ max A.bufsiz (2 * file.length), A.ok s = true) :
    ¬Defined (calculatorMain L lc A file) ↔ ∃ s l rest tok toks st, Before L lc start (Session.lines file) s (l :: rest) ∧
      Within L lc s (words l) [] (tok :: toks) st ∧ Fatal L s tok st := by
  rw [calculator_program L hL lc hlc A hA file hok, ← run_undefined]
  unfold session
  cases Session.run L lc start (Session.lines file) with
  | ok v => exact iff_of_false (not_not.mpr ⟨_, rfl⟩) (not_not.mpr ⟨_, rfl⟩)
  | error e => exact iff_of_true not_defined_error not_defined_error

/-- A fatal word: `abs` with NaR on the stack, in `takum64`; and the same number in `takum16` is harmless. -/
example (L : Libm) (st : List Val) : Fatal L start "abs".toList (⟨.log, .w64, nar 64, none⟩ :: st) ∧
    ¬Fatal L { start with width := .w16 } "abs".toList (⟨.log, .w16, nar 16, none⟩ :: st) := by
  have hw : word "abs".toList = .one .absolute := by decide +kernel
  refine ⟨.inl ⟨hw, .inr rfl, _, st, rfl, rfl⟩, ?_⟩
  rintro (⟨-, h, -⟩ | ⟨h, -⟩)
  · rcases h with h | h <;> cases h
  · cases h

end Takum.Calc
