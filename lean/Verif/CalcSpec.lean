import Verif.LiteralSpec
import Verif.Model.CalcText
import Mathlib.Data.List.SplitOn

/-!
# What the calculator is to do with an input

A session is a list of lines, a line a list of words, a word a register, an operator or a number. The operations
themselves are those of the library; the rest does not refer to the model of the program. There is no memory: the
stack is a list, a register holds one takum of one type, which is converted when it is used with another type.
-/

namespace Takum.Calc.Session
open Spec

/-- A number: a takum of its type, and the integer that it stands for if it stands for one. -/
structure Val where
  kind : Kind
  width : W
  t : T width
  int : Option ℤ

/-- The takum as another type: the same takum, or the conversion of the library. -/
def Val.as (L : Libm) (x : Val) (k : Kind) (w : W) : C (T w) :=
  if h : k = x.kind ∧ w = x.width then .ok (h.2 ▸ x.t) else convert L x.kind x.width x.t k w

/-- The integer that a real number is. -/
noncomputable def intOf (x : ℝ) : Option ℤ := if x = (⌊x⌋ : ℤ) then some ⌊x⌋ else none

/-- The result of an operation. For linear takums it is not defined if it is NaR or does not fit into `int64_t`. -/
noncomputable def result (k : Kind) (w : W) (t : T w) : C Val :=
  match k, value k t with
  | .log, v => .ok ⟨.log, w, t, v.bind intOf⟩
  | .lin, none => .error .conv
  | .lin, some x => if -2 ^ 63 - 1 < x ∧ x < 2 ^ 63 then .ok ⟨.lin, w, t, intOf x⟩ else .error .conv

/-- What a word is. -/
inductive Word
  | register (i : ℕ)
  | help
  | switch (k : Kind) (w : W)
  | power
  | precision
  | root
  | one (f : Fn1)
  | two (f : Fn2)
  | literal
  deriving DecidableEq

/-- The words that are not numbers. -/
def vocabulary : List (String × Word) :=
  [("?", .help), ("^", .power), ("precision", .precision), ("root", .root),
   ("takum8", .switch .log .w8), ("takum16", .switch .log .w16), ("takum32", .switch .log .w32), ("takum64", .switch .log .w64),
   ("takum_linear8", .switch .lin .w8), ("takum_linear16", .switch .lin .w16), ("takum_linear32", .switch .lin .w32),
   ("takum_linear64", .switch .lin .w64),
   ("+", .two .addition), ("-", .two .subtraction), ("*", .two .multiplication), ("/", .two .division),
   ("arctan2", .two (.b .arctan2)), ("arctan2_over_pi", .two (.b .arctan2_over_pi)), ("hypotenuse", .two (.b .hypotenuse)),
   ("abs", .one .absolute), ("inv", .one .inversion), ("sign", .one .sign), ("sqrt", .one .squareRoot),
   ("exp", .one (.u .exp)), ("exp_minus_1", .one (.u .exp_minus_1)), ("ln", .one (.u .ln)), ("ln_1_plus", .one (.u .ln_1_plus)),
   ("lb", .one (.u .lb)), ("lb_1_plus", .one (.u .lb_1_plus)), ("lg", .one (.u .lg)), ("lg_1_plus", .one (.u .lg_1_plus)),
   ("sin", .one (.u .sin)), ("cos", .one (.u .cos)), ("tan", .one (.u .tan)),
   ("csc", .one (.u .csc)), ("sec", .one (.u .sec)), ("cot", .one (.u .cot)),
   ("sin_pi_times", .one (.u .sin_pi_times)), ("cos_pi_times", .one (.u .cos_pi_times)), ("tan_pi_times", .one (.u .tan_pi_times)),
   ("csc_pi_times", .one (.u .csc_pi_times)), ("sec_pi_times", .one (.u .sec_pi_times)), ("cot_pi_times", .one (.u .cot_pi_times)),
   ("arcsin", .one (.u .arcsin)), ("arccos", .one (.u .arccos)), ("arctan", .one (.u .arctan)),
   ("arccsc", .one (.u .arccsc)), ("arcsec", .one (.u .arcsec)), ("arccot", .one (.u .arccot)),
   ("arcsin_over_pi", .one (.u .arcsin_over_pi)), ("arccos_over_pi", .one (.u .arccos_over_pi)),
   ("arctan_over_pi", .one (.u .arctan_over_pi)), ("arccsc_over_pi", .one (.u .arccsc_over_pi)),
   ("arcsec_over_pi", .one (.u .arcsec_over_pi)), ("arccot_over_pi", .one (.u .arccot_over_pi)),
   ("sinh", .one (.u .sinh)), ("cosh", .one (.u .cosh)), ("tanh", .one (.u .tanh)),
   ("csch", .one (.u .csch)), ("sech", .one (.u .sech)), ("coth", .one (.u .coth)),
   ("arsinh", .one (.u .arsinh)), ("arcosh", .one (.u .arcosh)), ("artanh", .one (.u .artanh)),
   ("arcsch", .one (.u .arcsch)), ("arsech", .one (.u .arsech)), ("arcoth", .one (.u .arcoth))]

/-- The registers. -/
def letters : List (List Char) := "abcdefghijklmnopqrstuvwxyz".toList.map fun c => [c]

/-- The meaning of a word. -/
def word (tok : List Char) : Word :=
  if tok ∈ letters then .register (letters.idxOf tok)
  else ((vocabulary.find? fun p => p.1.toList = tok).map Prod.snd).getD .literal

/-- A number that is typed: the float to convert, and the integer it stands for. Integers from `2^63 - 1` are NaR; integers
below `-2^63` are taken for `-2^63`. Other numbers are left to the C library, of them only -1, 0 and 1 are integers. -/
noncomputable def literal (lc : Libc) (tok : List Char) : Option (Fl × Option ℤ) :=
  open Classical in
  if h : ∃ v, IntLit tok v then
    if 2 ^ 63 - 1 ≤ h.choose then some (.nan, none)
    else some (Fl.ofInt x80 (max (-2 ^ 63) h.choose), some (max (-2 ^ 63) h.choose))
  else if (lc.strtold tok).2 = [] then
    some ((lc.strtold tok).1, match (lc.strtold tok).1 with
      | .zero _ => some 0
      | .num q => if q = 1 then some 1 else if q = -1 then some (-1) else none
      | _ => none)
  else none

/-- What a number is shown as. -/
def Val.shown (L : Libm) (x : Val) : C Shown :=
  match x.int with
  | some i => .ok (.int i)
  | none => do
    return match ← toLongDouble L x.kind x.width x.t with
      | .nan => .nar
      | f => .float f

/-- The state between lines: the type, the registers, the number of results so far. -/
structure State where
  kind : Kind
  width : W
  regs : ℕ → Val
  count : ℕ

/-- After a word: another stack, or the end of the line with the type for the next line and a message. -/
inductive Outcome
  | go (stack : List Val)
  | stop (k : Kind) (w : W) (out : List Item)

/-- A word. -/
noncomputable def exec (L : Libm) (lc : Libc) (s : State) (tok : List Char) (stack : List Val) : C Outcome :=
  match word tok, stack with
  | .register i, st => .ok (.go (s.regs i :: st))
  | .help, _ => .ok (.stop s.kind s.width [.help])
  | .switch k w, _ => .ok (.stop k w [])
  | .power, b :: a :: st => do
    let t ← match b.int with
      | none => do BFun.call L .power s.kind s.width (← a.as L s.kind s.width) (← b.as L s.kind s.width)
      | some i => do integerPowerOf L s.kind s.width (← a.as L s.kind s.width) (BitVec.ofInt 64 i)
    return .go ((← result s.kind s.width t) :: st)
  | .precision, a :: st => do
    let p ← Takum.precision s.width (← a.as L s.kind s.width)
    let t ← fromLongDouble L s.kind s.width (Fl.ofInt x80 p)
    return .go ((← result s.kind s.width t) :: st)
  | .root, b :: a :: st =>
    match b.int with
    | none => .ok (.stop s.kind s.width [])
    | some i => do
      let t ← rootOf L s.kind s.width (← a.as L s.kind s.width) (BitVec.ofInt 64 i)
      return .go ((← result s.kind s.width t) :: st)
  | .one f, a :: st => do
    let t ← f.run L s.kind s.width (← a.as L s.kind s.width)
    return .go ((← result s.kind s.width t) :: st)
  | .two f, b :: a :: st => do
    let t ← f.run L s.kind s.width (← a.as L s.kind s.width) (← b.as L s.kind s.width)
    return .go ((← result s.kind s.width t) :: st)
  | .literal, st =>
    match literal lc tok with
    | none => .ok (.stop s.kind s.width [.invalid tok])
    | some (f, i) => do
      let t ← fromLongDouble L s.kind s.width f
      return .go (⟨s.kind, s.width, t, i⟩ :: st)
  | _, _ => .ok (.stop s.kind s.width [.underflow])

/-- The words of a line. -/
noncomputable def execAll (L : Libm) (lc : Libc) (s : State) : List (List Char) → List Val → C (State × List Item)
  | [], [x] => do
    return ({ s with regs := Function.update s.regs (s.count % 26) x, count := s.count + 1 }, [.result (s.count % 26) (← x.shown L)])
  | [], _ => return (s, [.notOne])
  | tok :: toks, stack => do
    match ← exec L lc s tok stack with
    | .go stack => execAll L lc s toks stack
    | .stop k w out => return ({ s with kind := k, width := w }, out)

/-- The words of a text; the text ends at a zero byte. -/
def words (text : List Char) : List (List Char) := ((text.takeWhile (· ≠ '\x00')).splitOn ' ').filter (· ≠ [])

/-- A line; nothing happens if there are no words. -/
noncomputable def line (L : Libm) (lc : Libc) (s : State) (text : List Char) : C (State × List Item) :=
  if words text = [] then .ok (s, []) else execAll L lc s (words text) []

/-- The lines of a file. -/
def lines : List Char → List (List Char)
  | [] => []
  | c :: cs =>
    if c = '\n' then [] :: lines cs
    else match lines cs with
      | [] => [[c]]
      | l :: ls => (c :: l) :: ls

/-- The lines one after the other, each followed by a prompt. -/
noncomputable def run (L : Libm) (lc : Libc) (s : State) : List (List Char) → C (List Item)
  | [] => .ok []
  | l :: ls => do
    let (s, out) ← line L lc s l
    return out ++ .prompt :: (← run L lc s ls)

/-- At the start the type is `takum64` and the registers are 0. -/
def start : State := ⟨.log, .w64, fun _ => ⟨.log, .w8, 0#8, some 0⟩, 0⟩

/-- The session for an input. -/
noncomputable def session (L : Libm) (lc : Libc) (file : List Char) : C (List Item) := do
  return .banner :: (← run L lc start (lines file))

end Takum.Calc.Session
