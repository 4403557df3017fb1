import Verif.Model.CalcText
import Verif.LiteralSpec
import Mathlib.Tactic.IntervalCases
import Mathlib.Data.Nat.Digits.Lemmas

/-!
# `strtoll` reads integer literals
-/

namespace Takum.Calc

theorem char_le {a b : Char} : a ≤ b ↔ a.toNat ≤ b.toNat := Iff.rfl

theorem digit_iff {b : ℕ} (hb : b ≤ 16) (c : Char) (d : ℕ) : digit b c = some d ↔ (c, d) ∈ digitTable ∧ d < b := by
  constructor
  · intro h
    unfold digit at h
    simp only at h
    split_ifs at h with h1 h2 h3
    · have e1 : 48 ≤ c.toNat := h1.1
      have e2 : c.toNat ≤ 57 := h1.2
      rw [Option.filter_eq_some_iff] at h
      obtain ⟨h4, h5⟩ := h
      rw [Option.some.injEq] at h4
      simp only [decide_eq_true_eq] at h5
      refine ⟨?_, h5⟩
      rw [← Char.ofNat_toNat c, ← h4]
      generalize c.toNat = n at *
      interval_cases n <;> decide
    · have e1 : 97 ≤ c.toNat := h2.1
      rw [Option.filter_eq_some_iff] at h
      obtain ⟨h4, h5⟩ := h
      rw [Option.some.injEq] at h4
      simp only [decide_eq_true_eq] at h5
      refine ⟨?_, h5⟩
      rw [← Char.ofNat_toNat c, ← h4]
      have e2 : c.toNat ≤ 102 := by omega
      generalize c.toNat = n at *
      interval_cases n <;> decide
    · have e1 : 65 ≤ c.toNat := h3.1
      rw [Option.filter_eq_some_iff] at h
      obtain ⟨h4, h5⟩ := h
      rw [Option.some.injEq] at h4
      simp only [decide_eq_true_eq] at h5
      refine ⟨?_, h5⟩
      rw [← Char.ofNat_toNat c, ← h4]
      have e2 : c.toNat ≤ 70 := by omega
      generalize c.toNat = n at *
      interval_cases n <;> decide
    · simp at h
  · rintro ⟨h, hd⟩
    have key : ∀ p ∈ digitTable, digit 16 p.1 = some p.2 := by decide
    have h2 := key _ h
    unfold digit at h2 ⊢
    simp only at h2 ⊢
    rw [Option.filter_eq_some_iff] at h2 ⊢
    exact ⟨h2.1, by simpa using hd⟩

theorem foldl_digits (b : ℕ) (vs : List ℕ) (acc : ℕ) :
    vs.foldl (fun a v => a * b + v) acc = acc * b ^ vs.length + Nat.ofDigits b vs.reverse := by
  induction vs generalizing acc with
  | nil => simp
  | cons v vs ih =>
    rw [List.foldl_cons, ih, List.reverse_cons, Nat.ofDigits_append, List.length_cons, List.length_reverse]
    simp [pow_succ]; ring

theorem digits_reads {b : ℕ} (hb : b ≤ 16) {s : List Char} {vs : List ℕ} (h : List.Forall₂ (fun c v => (c, v) ∈ digitTable ∧ v < b) s vs)
    (acc : ℕ) : digits b acc s = (vs.foldl (fun a v => a * b + v) acc, []) := by
  induction h generalizing acc with
  | nil => rfl
  | cons h _ ih => rw [digits, (digit_iff hb _ _).mpr h]; exact ih _

theorem digits_inv {b : ℕ} (hb : b ≤ 16) (s : List Char) (acc v : ℕ) (h : digits b acc s = (v, [])) :
    ∃ vs : List ℕ, List.Forall₂ (fun c v => (c, v) ∈ digitTable ∧ v < b) s vs := by
  induction s generalizing acc with
  | nil => exact ⟨[], .nil⟩
  | cons c cs ih =>
    rw [digits] at h
    cases hd : digit b c with
    | none => rw [hd] at h; simp at h
    | some d =>
      rw [hd] at h
      obtain ⟨vs, hv⟩ := ih _ h
      exact ⟨d :: vs, .cons ((digit_iff hb c d).mp hd) hv⟩

theorem digits_iff {b : ℕ} (hb : b ≤ 16) (s : List Char) (v : ℕ) : digits b 0 s = (v, []) ↔ Reads b s v := by
  constructor
  · intro h
    obtain ⟨vs, hv⟩ := digits_inv hb s 0 v h
    refine ⟨vs, hv, ?_⟩
    have := digits_reads hb hv 0
    rw [h, foldl_digits] at this
    simpa using this
  · rintro ⟨vs, hv, rfl⟩
    rw [digits_reads hb hv, foldl_digits]; simp

theorem Reads.head {b n : ℕ} {c : Char} {r : List Char} (h : Reads b (c :: r) n) : ∃ d, (c, d) ∈ digitTable ∧ d < b := by
  obtain ⟨vs, h, -⟩ := h
  cases h with | cons h _ => exact ⟨_, h⟩

theorem isSpace_iff (c : Char) : isSpace c = true ↔ c ∈ blanks := by simp [isSpace, blanks, or_assoc]

theorem table_head {c : Char} {d : ℕ} (h : (c, d) ∈ digitTable) : isSpace c = false ∧ c ≠ '-' ∧ c ≠ '+' ∧ c ≠ 'x' ∧ c ≠ 'X' := by
  have key : ∀ p ∈ digitTable, isSpace p.1 = false ∧ p.1 ≠ '-' ∧ p.1 ≠ '+' ∧ p.1 ≠ 'x' ∧ p.1 ≠ 'X' := by decide
  exact key _ h

/-- What `strtoll` makes of the text after the sign: digits in the base found. -/
theorem base_spec (t : List Char) (n : ℕ) :
    (∃ c r, (strtollBase t).2 = c :: r ∧ (digit (strtollBase t).1 c).isSome ∧ digits (strtollBase t).1 0 (c :: r) = (n, [])) ↔
      Numeral t n := by
  constructor
  · rintro ⟨c, r, h1, h2, h3⟩
    unfold strtollBase at h1 h2 h3
    split at h1
    · rename_i x c' r'
      simp only at h2 h3
      by_cases hx : (x = 'x' ∨ x = 'X') ∧ (digit 16 c').isSome
      · rw [if_pos hx] at h1 h2 h3
        simp only at h1 h2 h3
        rw [← h1] at h3
        exact Or.inr (Or.inr ⟨x, _, rfl, hx.1, by simp, (digits_iff (by decide) _ _).mp h3⟩)
      · rw [if_neg hx] at h1 h2 h3
        simp only at h1 h2 h3
        rw [← h1] at h3
        exact Or.inr (Or.inl ⟨_, rfl, (digits_iff (by decide) _ _).mp h3⟩)
    · simp only at h1 h2 h3
      rw [← h1] at h3
      exact Or.inr (Or.inl ⟨_, rfl, (digits_iff (by decide) _ _).mp h3⟩)
    · simp only at h1 h2 h3
      subst h1
      rename_i h4 h5
      refine Or.inl ⟨c, r, rfl, ?_, (digits_iff (by decide) _ _).mp h3⟩
      rintro rfl
      exact h5 r rfl
  · rintro (⟨c, ds, rfl, hc, h⟩ | ⟨ds, rfl, h⟩ | ⟨x, ds, rfl, hx, hds, h⟩)
    · have hb : strtollBase (c :: ds) = (10, c :: ds) := by
        unfold strtollBase
        split <;> simp_all
      rw [hb]
      obtain ⟨d, hd⟩ := h.head
      exact ⟨c, ds, rfl, by rw [(digit_iff (by decide) c d).mpr hd]; rfl, (digits_iff (b := 10) (by decide) _ _).mpr h⟩
    · have hb : strtollBase ('0' :: ds) = (8, '0' :: ds) := by
        unfold strtollBase
        split
        · rename_i x c r he
          simp only [List.cons.injEq, true_and] at he
          subst he
          rw [if_neg]
          rintro ⟨h1, -⟩
          obtain ⟨vs, h, -⟩ := h
          cases h with | cons _ h => cases h with | cons h _ =>
            have := table_head h.1
            tauto
        · simp_all
        · simp_all
      rw [hb]
      exact ⟨'0', ds, rfl, (by decide : (digit 8 '0').isSome), (digits_iff (b := 8) (by decide) _ _).mpr h⟩
    · cases ds with
      | nil => exact absurd rfl hds
      | cons c r =>
        obtain ⟨d, hd⟩ := h.head
        have hs : (digit 16 c).isSome := by rw [(digit_iff (by decide) c d).mpr hd]; rfl
        have hb : strtollBase ('0' :: x :: c :: r) = (16, c :: r) := by
          unfold strtollBase; simp only; rw [if_pos ⟨hx, hs⟩]
        rw [hb]
        exact ⟨c, r, rfl, hs, (digits_iff (b := 16) (by decide) _ _).mpr h⟩

/-- The number is clamped to the range of `long long`. -/
def clamp (v : ℤ) : ℤ := max (-2 ^ 63) (min (2 ^ 63 - 1) v)

theorem numeral_head {body : List Char} {n : ℕ} (h : Numeral body n) : ∃ c r, body = c :: r ∧ isSpace c = false ∧ c ≠ '-' ∧ c ≠ '+' := by
  rcases h with ⟨c, ds, rfl, hc, h⟩ | ⟨ds, rfl, h⟩ | ⟨x, ds, rfl, hx, hds, h⟩
  · obtain ⟨d, hd, -⟩ := h.head
    have := table_head hd
    exact ⟨_, _, rfl, this.1, this.2.1, this.2.2.1⟩
  · exact ⟨_, _, rfl, by decide, by decide, by decide⟩
  · exact ⟨_, _, rfl, by decide, by decide, by decide⟩

theorem strtollSign_inv (t : List Char) : ∃ sg, t = sg ++ (strtollSign t).2 ∧
    ((sg = [] ∨ sg = ['+']) ∧ (strtollSign t).1 = false ∨ sg = ['-'] ∧ (strtollSign t).1 = true) := by
  unfold strtollSign
  split
  · exact ⟨['-'], rfl, Or.inr ⟨rfl, rfl⟩⟩
  · exact ⟨['+'], rfl, Or.inl ⟨Or.inr rfl, rfl⟩⟩
  · exact ⟨[], rfl, Or.inl ⟨Or.inl rfl, rfl⟩⟩

theorem dropWhile_blanks (ws t : List Char) (h : ∀ c ∈ ws, c ∈ blanks) (ht : ∀ c r, t = c :: r → isSpace c = false) :
    (ws ++ t).dropWhile isSpace = t := by
  induction ws with
  | nil =>
    cases t with
    | nil => rfl
    | cons c r => rw [List.nil_append, List.dropWhile_cons, if_neg (by rw [ht c r rfl]; decide)]
  | cons c ws ih =>
    rw [List.cons_append, List.dropWhile_cons, if_pos ((isSpace_iff c).mpr (h c (by simp)))]
    exact ih fun c hc => h c (by simp [hc])

/-- `strtoll` on an integer literal. -/
theorem strtoll_lit {tok : List Char} {v : ℤ} (h : IntLit tok v) : strtoll tok = (clamp v, []) := by
  obtain ⟨ws, sg, body, n, rfl, hws, hn, hsg⟩ := h
  obtain ⟨c, r, hb, h1, h2, h3⟩ := numeral_head hn
  have hd : (ws ++ sg ++ body).dropWhile isSpace = sg ++ body := by
    rw [List.append_assoc]
    refine dropWhile_blanks ws _ hws ?_
    intro c' r' he
    rcases hsg with ⟨rfl | rfl, -⟩ | ⟨rfl, -⟩
    · rw [List.nil_append, hb] at he; obtain ⟨rfl, rfl⟩ := List.cons.inj he; exact h1
    · obtain ⟨rfl, rfl⟩ := List.cons.inj he; decide
    · obtain ⟨rfl, rfl⟩ := List.cons.inj he; decide
  have hs : ∃ neg, strtollSign (sg ++ body) = (neg, body) ∧ v = if neg then -(n : ℤ) else n := by
    rcases hsg with ⟨rfl | rfl, hv⟩ | ⟨rfl, hv⟩
    · refine ⟨false, ?_, by simpa using hv⟩
      rw [List.nil_append, hb]
      unfold strtollSign
      split <;> simp_all
    · exact ⟨false, rfl, by simpa using hv⟩
    · exact ⟨true, rfl, by simpa using hv⟩
  obtain ⟨neg, hs, rfl⟩ := hs
  obtain ⟨c', r', e1, e2, e3⟩ := (base_spec body n).mpr hn
  unfold strtoll
  rw [hd, hs]
  simp only
  generalize strtollBase body = q at e1 e2 e3
  obtain ⟨b, t⟩ := q
  simp only at e1 e2 e3 ⊢
  subst e1
  simp only [if_pos e2, e3]
  rfl

theorem mem_takeWhile {α : Type} {p : α → Bool} {l : List α} {c : α} (h : c ∈ l.takeWhile p) : p c = true := by
  induction l with
  | nil => simp at h
  | cons a l ih =>
    rw [List.takeWhile_cons] at h
    split at h
    · rcases List.mem_cons.mp h with rfl | h
      · assumption
      · exact ih h
    · simp at h

/-- When `strtoll` uses up a token, the token is an integer literal. -/
theorem strtoll_inv {tok : List Char} (h : (strtoll tok).2 = []) (hne : tok ≠ []) : ∃ v, IntLit tok v := by
  obtain ⟨sg, e1, e2⟩ := strtollSign_inv (tok.dropWhile isSpace)
  unfold strtoll at h
  generalize hq : strtollSign (tok.dropWhile isSpace) = q at h e1 e2
  obtain ⟨neg, t⟩ := q
  simp only at h e1 e2
  have hb := base_spec t
  generalize hq2 : strtollBase t = q2 at h hb
  obtain ⟨b, u⟩ := q2
  simp only at h hb
  cases u with
  | nil => simp only at h; exact absurd h hne
  | cons c r =>
    simp only at h
    by_cases hd : (digit b c).isSome
    · rw [if_pos hd] at h
      simp only at h
      have hn := (hb (digits b 0 (c :: r)).1).mp ⟨c, r, rfl, hd, by rw [← h]⟩
      refine ⟨if neg then -((digits b 0 (c :: r)).1 : ℤ) else (digits b 0 (c :: r)).1, tok.takeWhile isSpace, sg, t, _, ?_, ?_, hn, ?_⟩
      · rw [List.append_assoc, ← e1, List.takeWhile_append_dropWhile]
      · intro c hc
        exact (isSpace_iff c).mp (mem_takeWhile hc)
      · rcases e2 with ⟨h1, rfl⟩ | ⟨h1, rfl⟩
        · exact Or.inl ⟨h1, rfl⟩
        · exact Or.inr ⟨h1, rfl⟩
    · rw [if_neg hd] at h
      exact absurd h hne

end Takum.Calc
