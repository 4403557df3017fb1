import Verif.Lemmas.CalcMain

/-!
# C75: the calculator as a whole

`Session.session` (`Verif/CalcSpec.lean`) says what the calculator is to print for an input: lines, words, a stack that
is a list, registers that hold one takum of one type. `calculatorMain` is the program, with `getline`, `strtok`, the
table of operators, the stack in memory, the eight takums of a `struct number` and the loop of `main`.
-/

namespace Takum.Calc
open Spec Session

/-- C75. The program prints for every input what the session prints, and has undefined behaviour for exactly the inputs
for which the session is undefined. The mathematical library has finite powers, `strtold` returns a `long double`, and
the allocations that `getline` needs for the longest line succeed. -/
theorem calculator_program (L : Libm) (hL : L.Powers) (lc : Libc) (hlc : lc.Sound) (A : Alloc) (hA : A.Sound)
    (file : List Char) (hok : ∀ s ≤ max A.bufsiz (2 * file.length), A.ok s = true) :
    calculatorMain L lc A file = session L lc file := by
  unfold calculatorMain session
  have h : MRep L Main.init start := by
    refine ⟨rfl, rfl, ⟨rfl, ?_⟩, rfl⟩
    intro i n hn
    have : n = Number.zero := List.eq_of_mem_replicate (List.mem_of_getElem? hn)
    subst this
    exact NRep.zero hL
  rw [loop_rep' hlc hA (file.length + 1) file (Nat.lt_succ_self _) hok h ⟨_, Rep.init⟩ ⟨none, 0⟩ (by rintro d ⟨⟩)]

/-! ## When the program is defined -/

/-- The words that can make the program undefined. -/
def risky : List (List Char) :=
  ["abs".toList, "takum_linear8".toList, "takum_linear16".toList, "takum_linear32".toList, "takum_linear64".toList]

theorem vocabulary_risky : ∀ p ∈ vocabulary, p.1.toList ∉ risky → p.2 ≠ .one .absolute ∧ ∀ w, p.2 ≠ .switch .lin w := by
  have h : ∀ p ∈ vocabulary, p.1.toList ∉ risky → p.2 ≠ .one .absolute ∧ p.2 ≠ .switch .lin .w8 ∧ p.2 ≠ .switch .lin .w16 ∧
      p.2 ≠ .switch .lin .w32 ∧ p.2 ≠ .switch .lin .w64 := by decide +kernel
  intro p hp hr
  obtain ⟨h1, h2, h3, h4, h5⟩ := h p hp hr
  exact ⟨h1, fun w => by cases w <;> assumption⟩

theorem word_safe {tok : List Char} (h : tok ∉ risky) : word tok ≠ .one .absolute ∧ ∀ w, word tok ≠ .switch .lin w := by
  unfold word
  split
  · exact ⟨by simp, by simp⟩
  · cases hf : vocabulary.find? fun p => p.1.toList = tok with
    | none => exact ⟨by simp, by simp⟩
    | some p =>
      have h2 : p.1.toList = tok := by simpa using List.find?_some hf
      exact vocabulary_risky p (List.mem_of_find?_eq_some hf) (h2 ▸ h)

theorem as_ok (L : Libm) (x : Val) (k : Kind) (w : W) : ∃ t, x.as L k w = .ok t := slot_ok L x.kind x.width x.t k w

theorem fn1_ok (L : Libm) {f : Fn1} (hf : f ≠ .absolute) (k : Kind) (w : W) (t : T w) : Defined (f.run L k w t) := by
  obtain ⟨-, -, -, -, -, h6, -, -, -, -, h11, -⟩ := no_undefined_behaviour L
  cases f with
  | u g => exact (no_undefined_behaviour_elementary L k w).1 g t
  | absolute => exact absurd rfl hf
  | inversion =>
    cases k
    · exact (h6 w t).2.2.1
    · exact (h6 w t).2.2.2
  | sign => exact (h6 w t).2.1
  | squareRoot =>
    cases k
    · exact (h11 w t).1
    · exact (h11 w t).2

theorem fn2_ok (L : Libm) (f : Fn2) (k : Kind) (w : W) (a b : T w) : Defined (f.run L k w a b) := by
  obtain ⟨-, -, -, -, -, -, h7, h8, h9, h10, -⟩ := no_undefined_behaviour L
  cases f with
  | b g => exact (no_undefined_behaviour_elementary L k w).2 g a b
  | addition => cases k; exacts [(h7 w a b).1, (h7 w a b).2]
  | subtraction => cases k; exacts [(h8 w a b).1, (h8 w a b).2]
  | multiplication => cases k; exacts [(h9 w a b).1, (h9 w a b).2]
  | division => cases k; exacts [(h10 w a b).1, (h10 w a b).2]

theorem result_log (w : W) (t : T w) : ∃ x, result .log w t = .ok x := ⟨_, rfl⟩

/-- A word that is not risky. -/
theorem exec_ok (L : Libm) (lc : Libc) {s : State} (hk : s.kind = .log) {tok : List Char} (h : tok ∉ risky) (st : List Val) :
    ∃ o, exec L lc s tok st = .ok o ∧ ∀ k w out, o = .stop k w out → k = .log := by
  obtain ⟨h1, h2⟩ := word_safe h
  obtain ⟨-, -, -, -, -, h6, -, -, -, -, -, h12, h13⟩ := no_undefined_behaviour L
  obtain ⟨sk, sw, sr, sc⟩ := s
  simp only at hk
  subst hk
  have hgo : ∀ (x : C (T sw)), Defined x → ∀ st', ∃ o, (do
      let t ← x
      return Outcome.go ((← result .log sw t) :: st') : C Outcome) = .ok o ∧ ∀ k w out, o = .stop k w out → k = .log := by
    rintro _ ⟨t, rfl⟩ st'
    exact ⟨_, rfl, by rintro k w out ⟨⟩⟩
  have hstop : ∀ out', ∃ o, (.ok (Outcome.stop .log sw out') : C Outcome) = .ok o ∧ ∀ k w out, o = .stop k w out → k = .log :=
    fun out' => ⟨_, rfl, by rintro k w out ⟨⟩; rfl⟩
  unfold exec
  cases hw : word tok with
  | register i => exact ⟨_, rfl, by rintro k w out ⟨⟩⟩
  | help => exact hstop _
  | switch k w =>
    refine ⟨_, rfl, ?_⟩
    rintro k' w' out ⟨⟩
    cases k
    · rfl
    · exact absurd hw (h2 w)
  | power =>
    match st with
    | [] => exact hstop _
    | [_] => exact hstop _
    | b :: a :: st =>
      obtain ⟨ta, ea⟩ := as_ok L a .log sw
      obtain ⟨tb, eb⟩ := as_ok L b .log sw
      simp only [ea, eb, ok_bind]
      cases b.int with
      | none => exact hgo _ ((no_undefined_behaviour_elementary L .log sw).2 _ _ _) _
      | some i => exact hgo _ (h12 sw ta _).1 _
  | precision =>
    match st with
    | [] => exact hstop _
    | a :: st =>
      obtain ⟨ta, ea⟩ := as_ok L a .log sw
      obtain ⟨p, ep⟩ := (h6 sw ta).1
      simp only [ea, ep, ok_bind]
      exact hgo _ (fromLongDouble_ok L .log sw _) _
  | root =>
    match st with
    | [] => exact hstop _
    | [_] => exact hstop _
    | b :: a :: st =>
      obtain ⟨ta, ea⟩ := as_ok L a .log sw
      simp only [ea, ok_bind]
      cases b.int with
      | none => exact hstop _
      | some i => exact hgo _ (h13 sw ta _).1 _
  | one f =>
    match st with
    | [] => exact hstop _
    | a :: st =>
      obtain ⟨ta, ea⟩ := as_ok L a .log sw
      simp only [ea, ok_bind]
      exact hgo _ (fn1_ok L (fun hf => h1 (by rw [hw, hf])) .log sw ta) _
  | two f =>
    match st with
    | [] => exact hstop _
    | [_] => exact hstop _
    | b :: a :: st =>
      obtain ⟨ta, ea⟩ := as_ok L a .log sw
      obtain ⟨tb, eb⟩ := as_ok L b .log sw
      simp only [ea, eb, ok_bind]
      exact hgo _ (fn2_ok L f .log sw ta tb) _
  | literal =>
    simp only
    cases literal lc tok with
    | none => exact hstop _
    | some p =>
      obtain ⟨t, e⟩ := fromLongDouble_ok L .log sw p.1
      simp only [e, ok_bind]
      exact ⟨_, rfl, by rintro k w out ⟨⟩⟩

theorem shown_ok (L : Libm) (x : Val) : ∃ v, x.shown L = .ok v := by
  unfold Val.shown
  cases x.int with
  | some i => exact ⟨_, rfl⟩
  | none =>
    obtain ⟨-, h, -⟩ := no_undefined_behaviour L
    have : ∃ f, toLongDouble L x.kind x.width x.t = .ok f := by
      cases x.kind
      · exact (h .ext x.width x.t).1
      · exact (h .ext x.width x.t).2
    obtain ⟨f, e⟩ := this
    simp only [e, ok_bind]
    exact ⟨_, rfl⟩

theorem execAll_ok (L : Libm) (lc : Libc) (toks : List (List Char)) (h : ∀ tok ∈ toks, tok ∉ risky) {s : State} (hk : s.kind = .log)
    (st : List Val) : ∃ r, execAll L lc s toks st = .ok r ∧ r.1.kind = .log := by
  induction toks generalizing st with
  | nil =>
    match st with
    | [] => exact ⟨_, rfl, hk⟩
    | _ :: _ :: _ => exact ⟨_, rfl, hk⟩
    | [x] =>
      obtain ⟨v, e⟩ := shown_ok L x
      rw [execAll, e]
      exact ⟨_, rfl, hk⟩
  | cons tok toks ih =>
    obtain ⟨o, e, ho⟩ := exec_ok L lc hk (h tok List.mem_cons_self) st
    rw [execAll, e]
    cases o with
    | go st' => exact ih (fun x hx => h x (List.mem_cons_of_mem _ hx)) st'
    | stop k w out => exact ⟨_, rfl, ho k w out rfl⟩

theorem run_ok (L : Libm) (lc : Libc) (ls : List (List Char)) (h : ∀ l ∈ ls, ∀ tok ∈ words l, tok ∉ risky) {s : State}
    (hk : s.kind = .log) : ∃ r, Session.run L lc s ls = .ok r := by
  induction ls generalizing s with
  | nil => exact ⟨_, rfl⟩
  | cons l ls ih =>
    have : ∃ r, Session.line L lc s l = .ok r ∧ r.1.kind = .log := by
      unfold Session.line
      split
      · exact ⟨_, rfl, hk⟩
      · exact execAll_ok L lc _ (h l List.mem_cons_self) hk []
    obtain ⟨r, e, hr⟩ := this
    obtain ⟨r', e'⟩ := ih (fun x hx => h x (List.mem_cons_of_mem _ hx)) hr
    rw [Session.run, e]
    simp only [ok_bind]
    rw [e']
    exact ⟨_, rfl⟩

/-- An input without the word `abs` and without a linear type: the program has no undefined behaviour, whatever the
numbers are. -/
theorem calculator_defined_partial (L : Libm) (hL : L.Powers) (lc : Libc) (hlc : lc.Sound) (A : Alloc) (hA : A.Sound)
    (file : List Char) (hok : ∀ s ≤ max A.bufsiz (2 * file.length), A.ok s = true)
    (h : ∀ l ∈ Session.lines file, ∀ tok ∈ words l, tok ∉ risky) :
    Defined (calculatorMain L lc A file) := by
  rw [calculator_program L hL lc hlc A hA file hok]
  obtain ⟨r, e⟩ := run_ok L lc (Session.lines file) h (s := start) rfl
  unfold session
  rw [e]
  exact ⟨_, rfl⟩

/-! ## When it is not -/

theorem literal_zero {lc : Libc} (hlc : lc.Sound) : literal lc ['0'] = some (.zero false, some 0) := by
  obtain ⟨h1, h2⟩ := scan_literal hlc (tok := ['0']) (by simp)
  have e : scan lc ['0'] = .ok (some (.zero false, 0)) := by
    unfold scan
    have : strtoll ['0'] = (0, []) := by decide
    generalize lc.strtold ['0'] = q
    rw [this]
    simp [INT64_MAX, Fl.ofInt, Fl.round]
    rfl
  rw [e] at h1
  cases hl : literal lc ['0'] with
  | none => rw [hl] at h1; cases h1
  | some p =>
    obtain ⟨f, i⟩ := p
    rw [hl] at h1
    have h3 := Except.ok.inj h1
    simp only [Option.map_some, Option.some.injEq, Prod.mk.injEq] at h3
    obtain ⟨rfl, h3⟩ := h3
    cases i with
    | none => simp [INT64_MAX] at h3
    | some i => simp only [Option.getD_some] at h3; rw [← h3]

/-- In `takum64` the absolute value of NaR is not defined, in a linear type no operation that yields NaR is. -/
theorem calculator_defined_refuted (L : Libm) (hL : L.Powers) (lc : Libc) (hlc : lc.Sound) (A : Alloc) (hA : A.Sound)
    (hok : ∀ s ≤ max A.bufsiz 100, A.ok s = true) :
    calculatorMain L lc A "0 inv abs\n".toList = .error .overflow ∧
    calculatorMain L lc A "takum_linear64\n0 inv\n".toList = .error .conv := by
  rw [calculator_program L hL lc hlc A hA _ (fun s hs => hok s (hs.trans (max_le_max le_rfl (by decide)))),
    calculator_program L hL lc hlc A hA _ (fun s hs => hok s (hs.trans (max_le_max le_rfl (by decide))))]
  have lit : ∀ (s : State) st, exec L lc s ['0'] st = .ok (.go (⟨s.kind, s.width, 0#s.width.n, some 0⟩ :: st)) := by
    intro s st
    have hw : word ['0'] = .literal := by decide +kernel
    have hf : fromLongDouble L s.kind s.width (.zero false) = .ok 0#s.width.n := by
      cases s.kind
      · exact logFrom_zero L .ext s.width false
      · exact linFrom_zero .ext s.width false
    unfold exec
    rw [hw]
    simp only [literal_zero hlc]
    rw [hf]; rfl
  constructor
  · unfold session
    have e1 : Session.lines "0 inv abs\n".toList = ["0 inv abs".toList] := by decide +kernel
    have e2 : words "0 inv abs".toList = [['0'], "inv".toList, "abs".toList] := by decide +kernel
    have w1 : word "inv".toList = .one .inversion := by decide +kernel
    have w2 : word "abs".toList = .one .absolute := by decide +kernel
    have i1 : inversionC .w64 0#64 = .ok (nar 64) := by decide +kernel
    have i2 : absolute .w64 (nar 64) = .error .overflow := by decide +kernel
    rw [e1, Session.run, Session.line, e2, if_neg (by simp), execAll, lit]
    simp only [ok_bind]
    have s1 : exec L lc start "inv".toList [⟨.log, .w64, 0#64, some 0⟩] =
        .ok (.go [⟨.log, .w64, nar 64, (value .log (nar 64)).bind intOf⟩]) := by
      unfold exec; rw [w1]
      show (do let t ← inversionC .w64 0#64; return Outcome.go [← result .log .w64 t]) = _
      rw [i1]; rfl
    have s2 : ∀ i, exec L lc start "abs".toList [⟨.log, .w64, nar 64, i⟩] = .error .overflow := by
      intro i
      unfold exec; rw [w2]
      show (do let t ← absolute .w64 (nar 64); return Outcome.go [← result .log .w64 t]) = _
      rw [i2]; rfl
    have s1' := s1
    rw [execAll]
    erw [s1]
    simp only [ok_bind]
    rw [execAll, s2]
    rfl
  · unfold session
    have e1 : Session.lines "takum_linear64\n0 inv\n".toList = ["takum_linear64".toList, "0 inv".toList] := by decide +kernel
    have e2 : words "takum_linear64".toList = ["takum_linear64".toList] := by decide +kernel
    have e3 : words "0 inv".toList = [['0'], "inv".toList] := by decide +kernel
    have w1 : word "inv".toList = .one .inversion := by decide +kernel
    have w2 : word "takum_linear64".toList = .switch .lin .w64 := by decide +kernel
    have i1 : linInversion .w64 0#64 = .ok (nar 64) := by decide +kernel
    have i2 : result .lin .w64 (nar 64) = .error .conv := by
      have : value .lin (nar 64) = none := by decide +kernel
      unfold result; simp only [this]
    have s0 : exec L lc start "takum_linear64".toList [] = .ok (.stop .lin .w64 []) := by
      unfold exec; rw [w2]
    have s1 : exec L lc { start with kind := .lin, width := .w64 } "inv".toList [⟨.lin, .w64, 0#64, some 0⟩] = .error .conv := by
      unfold exec; rw [w1]
      show (do let t ← linInversion .w64 0#64; return Outcome.go [← result .lin .w64 t]) = _
      rw [i1, ok_bind, i2]; rfl
    rw [e1, Session.run, Session.line, e2, if_neg (by simp), execAll, s0]
    simp only [ok_bind]
    rw [show (pure ({ start with kind := .lin, width := .w64 }, []) : C (State × List Item)) =
      .ok ({ start with kind := .lin, width := .w64 }, []) from rfl]
    simp only [ok_bind]
    rw [Session.run, Session.line, e3, if_neg (by simp), execAll, lit]
    simp only [ok_bind]
    rw [execAll]
    erw [s1]
    rfl

/-! ## The hypotheses can be met -/

/-- A platform with `BUFSIZ` 8192 on which every allocation up to `PTRDIFF_MAX` succeeds, a `strtold` that accepts nothing,
and an input that is not risky. -/
example (file : List Char) (hf : file.length < 2 ^ 60) :
    (⟨8192, fun s => s < 2 ^ 63⟩ : Alloc).Sound ∧ (∀ s ≤ max 8192 (2 * file.length), (s < 2 ^ 63 : Bool) = true) ∧
    (⟨fun s => (.zero false, s)⟩ : Libc).Sound ∧
    ∀ l ∈ Session.lines "1 2 +\na sqrt\n\n3 x".toList, ∀ tok ∈ words l, tok ∉ risky := by
  refine ⟨⟨by decide, fun s h => by simpa using h⟩, fun s hs => ?_, fun s => trivial, by decide +kernel⟩
  have : s < 2 ^ 63 := by omega
  simpa using this

/-- A session: a number is shown and stored, an operator without operand is refused. -/
example (L : Libm) (lc : Libc) (hlc : lc.Sound) :
    session L lc "0\nsqrt\n".toList = .ok [.banner, .result 0 (.int 0), .prompt, .underflow, .prompt] := by
  have e1 : Session.lines "0\nsqrt\n".toList = [['0'], "sqrt".toList] := by decide +kernel
  have e2 : words ['0'] = [['0']] := by decide +kernel
  have e3 : words "sqrt".toList = ["sqrt".toList] := by decide +kernel
  have w1 : word ['0'] = .literal := by decide +kernel
  have w2 : word "sqrt".toList = .one .squareRoot := by decide +kernel
  have s1 : exec L lc start ['0'] [] = .ok (.go [⟨.log, .w64, 0#64, some 0⟩]) := by
    unfold exec
    rw [w1]
    simp only [literal_zero hlc]
    rw [show fromLongDouble L start.kind start.width (.zero false) = .ok 0#64 from logFrom_zero L .ext .w64 false]
    rfl
  have s2 : ∀ s, exec L lc s "sqrt".toList [] = .ok (.stop s.kind s.width [.underflow]) := by
    intro s; unfold exec; rw [w2]
  have l1 : ∃ s', Session.line L lc start ['0'] = .ok (s', [.result 0 (.int 0)]) := by
    rw [Session.line, e2, if_neg (by simp), execAll, s1]
    exact ⟨_, rfl⟩
  have l2 : ∀ s, ∃ s', Session.line L lc s "sqrt".toList = .ok (s', [.underflow]) := by
    intro s
    rw [Session.line, e3, if_neg (by simp), execAll, s2]
    exact ⟨_, rfl⟩
  obtain ⟨s', l1⟩ := l1
  obtain ⟨s'', l2⟩ := l2 s'
  have r1 : Session.run L lc s' ["sqrt".toList] = .ok [.underflow, .prompt] := by
    rw [Session.run, l2]; rfl
  unfold session
  rw [e1, Session.run, l1]
  simp only [ok_bind]
  rw [r1]
  rfl

end Takum.Calc
