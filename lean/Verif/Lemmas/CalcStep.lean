import Verif.Lemmas.CalcNumber

/-!
# A token of the calculator
-/

namespace Takum.Calc
open Spec Session

/-! ## Words -/

theorem letters_register : ∀ l ∈ letters, register l = some (letters.idxOf l) := by decide +kernel

theorem register_letters {tok : List Char} {i : ℕ} (h : register tok = some i) : tok ∈ letters := by
  match tok, h with
  | [c], h =>
    have h' : (if 'a' ≤ c ∧ c ≤ 'z' then some (c.toNat - 'a'.toNat) else none) = some i := h
    clear h
    split at h'
    · rename_i hc
      have e1 : 97 ≤ c.toNat := hc.1
      have e2 : c.toNat ≤ 122 := hc.2
      rw [← Char.ofNat_toNat c]
      generalize c.toNat = n at *
      interval_cases n <;> decide +kernel
    · cases h'

theorem find_operator {tok : List Char} {o : Operator} (h : (operators.find? fun o => o.identifier.toList = tok) = some o) :
    o ∈ operators ∧ o.identifier.toList = tok := by
  refine ⟨List.mem_of_find?_eq_some h, ?_⟩
  simpa using List.find?_some h

theorem word_register {tok : List Char} {i : ℕ} (h : register tok = some i) : word tok = .register i ∧ i < 26 := by
  have hm := register_letters h
  have e := letters_register tok hm
  rw [h, Option.some.injEq] at e
  unfold word
  rw [if_pos hm, ← e]
  refine ⟨rfl, ?_⟩
  rw [e]
  exact List.idxOf_lt_length_of_mem hm

theorem vocabulary_operators : ∀ p ∈ vocabulary, ∃ o ∈ operators, o.identifier = p.1 := by decide +kernel

theorem word_literal {tok : List Char} (h : register tok = none) (ho : (operators.find? fun o => o.identifier.toList = tok) = none) :
    word tok = .literal := by
  unfold word
  rw [if_neg (by intro hm; rw [letters_register tok hm] at h; cases h)]
  rw [List.find?_eq_none.mpr]
  · rfl
  · intro p hp hc
    obtain ⟨o, ho1, ho2⟩ := vocabulary_operators p hp
    exact List.find?_eq_none.mp ho o ho1 (by rw [ho2]; exact hc)

theorem op_help : ∀ o ∈ operators, o.type = .help → word o.identifier.toList = .help := by decide +kernel
theorem op_power : ∀ o ∈ operators, o.type = .power → word o.identifier.toList = .power := by decide +kernel
theorem op_precision : ∀ o ∈ operators, o.type = .precision → word o.identifier.toList = .precision := by decide +kernel
theorem op_root : ∀ o ∈ operators, o.type = .takumInt64Takum → word o.identifier.toList = .root := by decide +kernel
theorem op_switch : ∀ k w, word (typeName k w).toList = .switch k w := by intro k w; cases k <;> cases w <;> decide +kernel
theorem op_one : ∀ o ∈ operators, o.type = .takumTakum → ∃ p ∈ fn1Names, p.1 = fnName o.identifier ∧
    word o.identifier.toList = .one p.2 := by decide +kernel
theorem op_two : ∀ o ∈ operators, o.type = .takumTakumTakum → ∃ p ∈ fn2Names, p.1 = fnName o.identifier ∧
    word o.identifier.toList = .two p.2 := by decide +kernel

/-! ## The stack -/

/-- The stack holds the numbers. -/
def SRep (L : Libm) (s : Stack Number) (l : List Val) : Prop := ∃ ns, Rep s ns ∧ List.Forall₂ (NRep L) ns l

/-- The result of a token. -/
def StepRel (L : Libm) (s : State) : Cal × List Item × Bool → Outcome → Prop
  | (c, out, stop), .go st => stop = false ∧ out = [] ∧ c.kind = s.kind ∧ c.width = s.width ∧ SRep L c.stack st
  | (c, out, stop), .stop k w o => stop = true ∧ out = o ∧ c.kind = k ∧ c.width = w ∧ ∃ l, Rep c.stack l

theorem pushed_rep {L : Libm} {s : State} {c : Cal} {st : List Val} (hk : c.kind = s.kind) (hw : c.width = s.width)
    (hs : SRep L c.stack st) {n : Number} {x : Val} (h : NRep L n x) : Sim (StepRel L s) (c.pushed n) (.ok (.go (x :: st))) := by
  obtain ⟨ns, r, f⟩ := hs
  obtain ⟨s', e, r'⟩ := r.push n
  unfold Cal.pushed
  rw [e]
  exact ⟨rfl, rfl, hk, hw, _, r', .cons h f⟩

theorem popped_nil {L : Libm} {s : State} {c : Cal} (hk : c.kind = s.kind) (hw : c.width = s.width)
    (hs : SRep L c.stack []) (rest : Cal → Number → Step) :
    Sim (StepRel L s) (c.popped rest) (.ok (.stop s.kind s.width [.underflow])) := by
  obtain ⟨ns, r, f⟩ := hs
  cases f
  unfold Cal.popped
  rw [r.pop_nil]
  exact ⟨rfl, rfl, hk, hw, _, r⟩

theorem popped_cons {L : Libm} {c : Cal} {x : Val} {st : List Val} (hs : SRep L c.stack (x :: st)) (rest : Cal → Number → Step) :
    ∃ c' n, c.popped rest = rest c' n ∧ NRep L n x ∧ c'.kind = c.kind ∧ c'.width = c.width ∧ SRep L c'.stack st := by
  obtain ⟨ns, r, f⟩ := hs
  cases f with
  | cons h f =>
    obtain ⟨s', e, r'⟩ := r.pop_cons
    unfold Cal.popped
    rw [e]
    exact ⟨_, _, rfl, h, rfl, rfl, _, r', f⟩

/-- The takum is computed, turned into a number and pushed. -/
theorem finish_rep {L : Libm} {s : State} {c : Cal} {st : List Val} (hk : c.kind = s.kind) (hw : c.width = s.width)
    (hs : SRep L c.stack st) {a : C (T s.width)} {b : C (T s.width)} (hab : a = b) :
    Sim (StepRel L s) (do let t ← a; c.pushed (← numberFrom L s.kind s.width t))
      (do let t ← b; return .go ((← result s.kind s.width t) :: st)) := by
  subst hab
  refine (Sim.refl a).bind ?_
  rintro t _ rfl
  exact (numberFrom_rep L s.kind s.width t).bind fun n x h => pushed_rep hk hw hs h

/-- An operator. -/
theorem operator_rep {L : Libm} (lc : Libc) {s : State} {c : Cal} {st : List Val} (hk : c.kind = s.kind) (hw : c.width = s.width)
    (hs : SRep L c.stack st) {o : Operator} (ho : o ∈ operators) :
    Sim (StepRel L s) (c.operator L o) (exec L lc s o.identifier.toList st) := by
  obtain ⟨-, -, tab, -, sw⟩ := operator_table
  have hf := fun h => tab s.kind s.width o ho h
  unfold Cal.operator
  cases ht : o.type with
  | help =>
    simp only
    unfold exec; rw [op_help o ho ht]
    obtain ⟨ns, r, f⟩ := hs
    exact ⟨rfl, rfl, hk, hw, _, r⟩
  | switchTakumType =>
    simp only
    obtain ⟨k, w, rfl⟩ := sw o ho ht
    unfold exec; rw [op_switch k w]
    obtain ⟨ns, r, f⟩ := hs
    exact ⟨rfl, rfl, rfl, rfl, _, r⟩
  | precision =>
    simp only
    unfold exec; rw [op_precision o ho ht]
    cases st with
    | nil => exact popped_nil hk hw hs _
    | cons a st =>
      obtain ⟨c', n, e, hn, k1, w1, hs'⟩ := popped_cons hs (fun s a => do
        let p ← Takum.precision s.width (a.val s.kind s.width)
        let t ← fromLongDouble L s.kind s.width (Fl.ofInt x80 p)
        s.pushed (← numberFrom L s.kind s.width t))
      rw [e]
      rw [hk] at k1; rw [hw] at w1
      obtain ⟨ck, cw, cs⟩ := c'
      simp only at k1 w1 hs' ⊢
      subst k1 w1
      rw [hn.val, ok_bind]
      have := finish_rep (L := L) (s := s) (c := ⟨s.kind, s.width, cs⟩) rfl rfl hs'
        (a := do let p ← Takum.precision s.width (n.val s.kind s.width); fromLongDouble L s.kind s.width (Fl.ofInt x80 p)) rfl
      simpa only [bind_assoc] using this
  | power =>
    simp only
    unfold exec; rw [op_power o ho ht]
    match st, hs with
    | [], hs => exact popped_nil hk hw hs _
    | [b], hs =>
      obtain ⟨c', n, e, hn, k1, w1, hs'⟩ := popped_cons hs _
      rw [e]
      exact popped_nil (k1.trans hk) (w1.trans hw) hs' _
    | b :: a :: st, hs =>
      obtain ⟨c', nb, e, hb, k1, w1, hs'⟩ := popped_cons hs _
      rw [e]
      obtain ⟨c', na, e, ha, k2, w2, hs'⟩ := popped_cons hs' _
      rw [e]
      rw [k1, hk] at k2; rw [w1, hw] at w2
      obtain ⟨ck, cw, cs⟩ := c'
      simp only at k2 w2 hs' ⊢
      subst k2 w2
      cases hi : b.int with
      | none =>
        have : nb.int = INT64_MAX := by rw [hb.int, hi]; rfl
        simp only [if_pos this, hb.val, ha.val, ok_bind]
        exact finish_rep (L := L) (s := s) (c := ⟨s.kind, s.width, cs⟩) rfl rfl hs' rfl
      | some i =>
        have h1 : nb.int = i := by rw [hb.int, hi]; rfl
        have h2 : i ≠ INT64_MAX := by rintro rfl; exact hb.ne hi
        simp only [if_neg (show ¬ nb.int = INT64_MAX by rw [h1]; exact h2), ha.val, ok_bind]
        rw [h1]
        exact finish_rep (L := L) (s := s) (c := ⟨s.kind, s.width, cs⟩) rfl rfl hs' rfl
  | takumInt64Takum =>
    simp only
    unfold exec; rw [op_root o ho ht]
    have hr : ∀ w', w' = s.width → ((o.implementation.field s.kind w').bind (resolve [("root", ())] w')) = some (s.kind, ()) := by
      rintro _ rfl
      obtain ⟨-, -, h3, -⟩ := operator_functions
      obtain ⟨-, str, h4, h5⟩ := h3 s.kind s.width o ho ht
      rw [h4, Option.bind_some, h5]
    match st, hs with
    | [], hs => exact popped_nil hk hw hs _
    | [b], hs =>
      obtain ⟨c', n, e, hn, k1, w1, hs'⟩ := popped_cons hs _
      rw [e]
      exact popped_nil (k1.trans hk) (w1.trans hw) hs' _
    | b :: a :: st, hs =>
      obtain ⟨c', nb, e, hb, k1, w1, hs'⟩ := popped_cons hs _
      rw [e]
      obtain ⟨c', na, e, ha, k2, w2, hs'⟩ := popped_cons hs' _
      rw [e]
      rw [k1, hk] at k2; rw [w1, hw] at w2
      obtain ⟨ck, cw, cs⟩ := c'
      simp only at k2 w2 hs' ⊢
      subst k2 w2
      cases hi : b.int with
      | none =>
        have : nb.int = INT64_MAX := by rw [hb.int, hi]; rfl
        rw [if_pos this]
        obtain ⟨ns, r, f⟩ := hs'
        exact ⟨rfl, rfl, rfl, rfl, _, r⟩
      | some i =>
        have h1 : nb.int = i := by rw [hb.int, hi]; rfl
        have h2 : i ≠ INT64_MAX := by rintro rfl; exact hb.ne hi
        rw [if_neg (by rw [h1]; exact h2), h1, hr _ rfl]
        simp only [ha.val, ok_bind]
        exact finish_rep (L := L) (s := s) (c := ⟨s.kind, s.width, cs⟩) rfl rfl hs' rfl
  | takumTakum =>
    simp only
    obtain ⟨p, hp, e0, e1⟩ := op_one o ho ht
    unfold exec; rw [e1]
    have hr : ∀ w', w' = s.width → ((o.implementation.field s.kind w').bind (resolve fn1Names w')) = some (s.kind, p.2) := by
      rintro _ rfl
      rw [hf (by rw [ht]; rfl), Option.bind_some, ← e0]
      exact resolve_name (by decide +kernel) hp s.kind s.width
    cases st with
    | nil => exact popped_nil hk hw hs _
    | cons a st =>
      obtain ⟨c', na, e, ha, k2, w2, hs'⟩ := popped_cons hs _
      rw [e]
      rw [hk] at k2; rw [hw] at w2
      obtain ⟨ck, cw, cs⟩ := c'
      simp only at k2 w2 hs' ⊢
      subst k2 w2
      rw [hr _ rfl]
      simp only [ha.val, ok_bind]
      exact finish_rep (L := L) (s := s) (c := ⟨s.kind, s.width, cs⟩) rfl rfl hs' rfl
  | takumTakumTakum =>
    simp only
    obtain ⟨p, hp, e0, e1⟩ := op_two o ho ht
    unfold exec; rw [e1]
    have hr : ∀ w', w' = s.width → ((o.implementation.field s.kind w').bind (resolve fn2Names w')) = some (s.kind, p.2) := by
      rintro _ rfl
      rw [hf (by rw [ht]; rfl), Option.bind_some, ← e0]
      exact resolve_name (by decide +kernel) hp s.kind s.width
    match st, hs with
    | [], hs => exact popped_nil hk hw hs _
    | [b], hs =>
      obtain ⟨c', n, e, hn, k1, w1, hs'⟩ := popped_cons hs _
      rw [e]
      exact popped_nil (k1.trans hk) (w1.trans hw) hs' _
    | b :: a :: st, hs =>
      obtain ⟨c', nb, e, hb, k1, w1, hs'⟩ := popped_cons hs _
      rw [e]
      obtain ⟨c', na, e, ha, k2, w2, hs'⟩ := popped_cons hs' _
      rw [e]
      rw [k1, hk] at k2; rw [w1, hw] at w2
      obtain ⟨ck, cw, cs⟩ := c'
      simp only at k2 w2 hs' ⊢
      subst k2 w2
      rw [hr _ rfl]
      simp only [ha.val, hb.val, ok_bind]
      exact finish_rep (L := L) (s := s) (c := ⟨s.kind, s.width, cs⟩) rfl rfl hs' rfl

/-- The registers. -/
structure RegRep (L : Libm) (results : List Number) (s : State) : Prop where
  length : results.length = 26
  get : ∀ i n, results[i]? = some n → NRep L n (s.regs i)

/-- A token. -/
theorem processToken_rep {L : Libm} {lc : Libc} (hlc : lc.Sound) {s : State} {c : Cal} {st : List Val} (hk : c.kind = s.kind)
    (hw : c.width = s.width) (hs : SRep L c.stack st) {results : List Number} (hr : RegRep L results s) {tok : List Char}
    (hne : tok ≠ []) : Sim (StepRel L s) (processToken L lc tok c results) (exec L lc s tok st) := by
  unfold processToken
  cases hreg : register tok with
  | some i =>
    obtain ⟨e, hi⟩ := word_register hreg
    have hlt : i < results.length := by rw [hr.length]; exact hi
    simp only [List.getElem?_eq_getElem hlt]
    unfold exec; rw [e]
    exact pushed_rep hk hw hs (hr.get i _ (List.getElem?_eq_getElem hlt))
  | none =>
    simp only
    cases ho : operators.find? fun o => o.identifier.toList = tok with
    | some o =>
      obtain ⟨h1, rfl⟩ := find_operator ho
      exact operator_rep lc hk hw hs h1
    | none =>
      simp only
      unfold exec
      rw [word_literal hreg ho, hk, hw]
      obtain ⟨h1, h2⟩ := numberFromString_rep L hlc hne s.kind s.width
      cases hl : literal lc tok with
      | none =>
        rw [h1 hl]
        obtain ⟨ns, r, f⟩ := hs
        exact ⟨rfl, rfl, hk, hw, _, r⟩
      | some p =>
        obtain ⟨f, i⟩ := p
        obtain ⟨t, n, e1, e2, hn⟩ := h2 f i hl
        rw [e2]
        simp only
        rw [e1]
        exact pushed_rep hk hw hs hn

end Takum.Calc
