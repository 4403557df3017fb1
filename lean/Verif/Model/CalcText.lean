import Verif.Model.Getline
import Verif.Model.Operators
import Verif.Model.Families

/-!
# example/calculator.c: numbers, tokens, `main`

Simplified: allocations succeed (see `Stack.push` and `getline` for what happens if not); a byte is a `Char`; the
output is the list of the things printed, without the text of the messages and without the digits that `printf`
chooses; `strtold` is a parameter; an uninitialised byte of the line counts as an access out of bounds.
-/

namespace Takum.Calc
open Spec (Kind)

/-- The parts of the C library that the model leaves open: `strtold`, by the number it returns and the part of the
text that it leaves. -/
structure Libc where
  strtold : List Char → Fl × List Char

/-! ## strtoll -/

/-- C99 7.4.1.10, `isspace` in the "C" locale. -/
def isSpace (c : Char) : Bool := c = ' ' || c = '\t' || c = '\n' || c = '\x0b' || c = '\x0c' || c = '\r'

/-- C99 7.20.1.4p3, the value of a character as digit. -/
def digit (base : ℕ) (c : Char) : Option ℕ :=
  let d := if '0' ≤ c ∧ c ≤ '9' then some (c.toNat - 48)
    else if 'a' ≤ c ∧ c ≤ 'z' then some (c.toNat - 87)
    else if 'A' ≤ c ∧ c ≤ 'Z' then some (c.toNat - 55)
    else none
  d.filter (· < base)

/-- The longest run of digits, added to what has been read. -/
def digits (base acc : ℕ) : List Char → ℕ × List Char
  | [] => (acc, [])
  | c :: cs =>
    match digit base c with
    | some d => digits base (acc * base + d) cs
    | none => (acc, c :: cs)

/-- C99 7.20.1.4p3-4, the optional sign. -/
def strtollSign : List Char → Bool × List Char
  | '-' :: t => (true, t)
  | '+' :: t => (false, t)
  | t => (false, t)

/-- C99 7.20.1.4p3 and 6.4.4.1, the base that the prefix selects and the digits after `0x`. -/
def strtollBase : List Char → ℕ × List Char
  | '0' :: x :: c :: r => if (x = 'x' ∨ x = 'X') ∧ (digit 16 c).isSome then (16, c :: r) else (8, '0' :: x :: c :: r)
  | '0' :: r => (8, '0' :: r)
  | t => (10, t)

/-- C99 7.20.1.4, `strtoll(s, &endptr, 0)` with a 64-bit `long long`: the number and the text at `endptr`. -/
def strtoll (s : List Char) : ℤ × List Char :=
  let (neg, t) := strtollSign (s.dropWhile isSpace)
  let (base, t) := strtollBase t
  match t with
  | [] => (0, s)
  | c :: r =>
    if (digit base c).isSome then
      let (v, rest) := digits base 0 (c :: r)
      let v : ℤ := if neg then -v else v
      (max (-2 ^ 63) (min (2 ^ 63 - 1) v), rest)
    else (0, s)

/-! ## Numbers -/

/-- example/calculator.c:24-35, `struct number`: the type, the eight takums and `integer_value`. -/
structure Number where
  kind : Kind
  width : W
  val : Kind → (w : W) → T w
  int : ℤ

/-- The conversion between two types of takum that calculator.c calls by its name, for example
`takum_linear8_from_takum16` (the functions of src/conversion.c:285-627). -/
def convert (L : Libm) (k : Kind) (w : W) (t : T w) (k' : Kind) (w' : W) : C (T w') :=
  match k, k' with
  | .log, .lin => linFromLog L w w' t
  | .lin, .log => logFromLin L w w' t
  | _, _ => if w.n < w'.n then expand w w' t else reduce w w' t

/-- A field of `struct number`: the takum itself for its own type, else the conversion. -/
def slot (L : Libm) (k : Kind) (w : W) (t : T w) (k' : Kind) (w' : W) : C (T w') :=
  if h : k' = k ∧ w' = w then .ok (h.2 ▸ t) else convert L k w t k' w'

/-- example/calculator.c:88-267 and 288-299, 318-329, 348-359, 378-389, 407-421, 439-453, 471-485, 503-517: the type,
the takum, the conversions to the seven other types, the marker. -/
def fill (L : Libm) (k : Kind) (w : W) (t : T w) (int : ℤ) : C Number := do
  let t8 ← slot L k w t .log .w8
  let t16 ← slot L k w t .log .w16
  let t32 ← slot L k w t .log .w32
  let t64 ← slot L k w t .log .w64
  let l8 ← slot L k w t .lin .w8
  let l16 ← slot L k w t .lin .w16
  let l32 ← slot L k w t .lin .w32
  let l64 ← slot L k w t .lin .w64
  return ⟨k, w, fun
    | .log, .w8 => t8
    | .log, .w16 => t16
    | .log, .w32 => t32
    | .log, .w64 => t64
    | .lin, .w8 => l8
    | .lin, .w16 => l16
    | .lin, .w32 => l32
    | .lin, .w64 => l64, int⟩

/-- example/calculator.c:272-518, `number_from_takum8` to `number_from_takum_linear64`. -/
def numberFrom (L : Libm) (k : Kind) (w : W) (t : T w) : C Number := do
  let i ← match k with
    | .log => .ok (integerValueLog w t)
    | .lin => integerValueLin w t
  fill L k w t i

/-- `takumN_from_extended_float` or `takum_linearN_from_extended_float`. -/
def fromLongDouble (L : Libm) : Kind → (w : W) → Fl → C (T w)
  | .log => fromExtended L
  | .lin => linFromExtended

/-- `takumN_to_extended_float` or `takum_linearN_to_extended_float`. -/
def toLongDouble (L : Libm) : Kind → (w : W) → T w → C Fl
  | .log => toExtended L
  | .lin => linToExtended

/-- example/calculator.c:51-86, the first part of `number_from_string`: the float and the marker, `none` for an
invalid token. -/
def scan (lc : Libc) (tok : List Char) : C (Option (Fl × ℤ)) :=
  let (i, iend) := strtoll tok
  let (f, fend) := lc.strtold tok
  if iend = [] then
    if i ≥ INT64_MAX ∨ i < -2 ^ 63 then return some (.nan, INT64_MAX)
    else return some (Fl.ofInt x80 i, i)
  else if fend = [] then
    if Fl.eq f (.num (-1)) ∨ Fl.eq f (.zero false) ∨ Fl.eq f (.num 1) then do
      return some (f, ← Fl.toInt 64 f)
    else return some (f, INT64_MAX)
  else return none

/-- example/calculator.c:37-270, `number_from_string`. -/
def numberFromString (L : Libm) (lc : Libc) (tok : List Char) (k : Kind) (w : W) : C (Option Number) := do
  match ← scan lc tok with
  | none => return none
  | some (f, i) => do
    let t ← fromLongDouble L k w f
    return some (← fill L k w t i)

/-- What `number_print` prints: an integer, `NaR` or a float. -/
inductive Shown
  | int (i : ℤ)
  | nar
  | float (f : Fl)

/-- example/calculator.c:520-570, `number_print`. -/
def Number.print (L : Libm) (x : Number) : C Shown :=
  if x.int ≠ INT64_MAX then return .int x.int
  else do
    let f ← toLongDouble L x.kind x.width (x.val x.kind x.width)
    return match f with
      | .nan => .nar
      | f => .float f

/-! ## Tokens -/

/-- What is printed. -/
inductive Item
  | banner                             -- 2151
  | prompt                             -- 2215
  | help                               -- 1578-1620
  | invalid (tok : List Char)          -- 84
  | underflow                          -- 620
  | exhausted                          -- 605
  | notOne                             -- 2181
  | result (register : ℕ) (x : Shown)  -- 2191-2193

/-- The state of `process_token`: the current type and the stack. -/
structure Cal where
  kind : Kind
  width : W
  stack : Stack Number

/-- The state, what has been printed and whether the rest of the line is skipped. -/
abbrev Step := C (Cal × List Item × Bool)

/-- `if (stack_push(stack, &x)) return 1; … return 0`. -/
def Cal.pushed (s : Cal) (x : Number) : Step := do
  let (st, r) ← s.stack.push true x
  return ({ s with stack := st }, match r with | .failed => ([.exhausted], true) | _ => ([], false))

/-- `if (stack_pop(stack, &a)) return 1;` followed by the rest. -/
def Cal.popped (s : Cal) (rest : Cal → Number → Step) : Step := do
  let (st, r) ← s.stack.pop
  match r with
  | .got x => rest { s with stack := st } x
  | _ => return ({ s with stack := st }, [.underflow], true)

/-- example/calculator.c:1576-2126, the operator that has been found. A field that is not there counts as an access
out of bounds. -/
def Cal.operator (L : Libm) (s : Cal) (o : Operator) : Step :=
  match o.type with
  | .help => return (s, [.help], true)
  | .power =>
    s.popped fun s b => s.popped fun s a => do
      let t ← if b.int = INT64_MAX then BFun.call L .power s.kind s.width (a.val s.kind s.width) (b.val s.kind s.width)
        else integerPowerOf L s.kind s.width (a.val s.kind s.width) (BitVec.ofInt 64 b.int)
      s.pushed (← numberFrom L s.kind s.width t)
  | .precision =>
    s.popped fun s a => do
      let p ← Takum.precision s.width (a.val s.kind s.width)
      let t ← fromLongDouble L s.kind s.width (Fl.ofInt x80 p)
      s.pushed (← numberFrom L s.kind s.width t)
  | .switchTakumType =>
    match o.implementation with
    | .type k w => return ({ s with kind := k, width := w }, [], true)
    | _ => .error .index
  | .takumInt64Takum =>
    s.popped fun s b => s.popped fun s a =>
      if b.int = INT64_MAX then return (s, [], true)
      else
        match (o.implementation.field s.kind s.width).bind (resolve [("root", ())] s.width) with
        | some (k, _) => do
          let t ← rootOf L k s.width (a.val s.kind s.width) (BitVec.ofInt 64 b.int)
          s.pushed (← numberFrom L s.kind s.width t)
        | none => .error .index
  | .takumTakum =>
    s.popped fun s a =>
      match (o.implementation.field s.kind s.width).bind (resolve fn1Names s.width) with
      | some (k, f) => do
        let t ← f.run L k s.width (a.val s.kind s.width)
        s.pushed (← numberFrom L s.kind s.width t)
      | none => .error .index
  | .takumTakumTakum =>
    s.popped fun s b => s.popped fun s a =>
      match (o.implementation.field s.kind s.width).bind (resolve fn2Names s.width) with
      | some (k, f) => do
        let t ← f.run L k s.width (a.val s.kind s.width) (b.val s.kind s.width)
        s.pushed (← numberFrom L s.kind s.width t)
      | none => .error .index

/-- example/calculator.c:1557, the register that a token names. -/
def register : List Char → Option ℕ
  | [c] => if 'a' ≤ c ∧ c ≤ 'z' then some (c.toNat - 'a'.toNat) else none
  | _ => none

/-- example/calculator.c:1546-2139, `process_token`. -/
def processToken (L : Libm) (lc : Libc) (tok : List Char) (s : Cal) (results : List Number) : Step :=
  match register tok with
  | some i =>
    match results[i]? with
    | some x => s.pushed x
    | none => .error .index
  | none =>
    match operators.find? fun o => o.identifier.toList = tok with
    | some o => s.operator L o
    | none => do
      match ← numberFromString L lc tok s.kind s.width with
      | none => return (s, [.invalid tok], true)
      | some x => s.pushed x

/-! ## main -/

/-- The text that a pointer to the start of the line sees: the bytes up to the first zero. -/
def cstr : List (Option Char) → C (List Char)
  | [] => .error .index
  | none :: _ => .error .index
  | some c :: cs => if c = '\x00' then .ok [] else do return c :: (← cstr cs)

/-- C99 7.21.5.8, the tokens that `strtok(line, " \n")` and then `strtok(NULL, " \n")` return until they return the
null pointer; `cur` is the part of a token that has been passed. -/
def strtok (cur : List Char) : List Char → List (List Char)
  | [] => if cur = [] then [] else [cur]
  | c :: cs =>
    if c = ' ' ∨ c = '\n' then if cur = [] then strtok [] cs else cur :: strtok [] cs
    else strtok (cur ++ [c]) cs

/-- The state of `main`: the current type and the stack, `results`, `result_offset`. -/
structure Main where
  cal : Cal
  results : List Number
  offset : ℕ

/-- example/calculator.c:2176-2210, the end of a line. -/
def Main.finish (L : Libm) (m : Main) : C (Main × List Item) :=
  if m.cal.stack.size ≠ 1 then return (m, [.notOne])
  else do
    let (st, r) ← m.cal.stack.pop
    match r with
    | .got x => do
      let shown ← x.print L
      if m.offset < m.results.length then
        return (⟨{ m.cal with stack := st }, m.results.set m.offset x, (m.offset + 1) % m.results.length⟩, [.result m.offset shown])
      else .error .index
    | _ => .error .index

/-- example/calculator.c:2166-2212, the loop over the tokens of a line. -/
def Main.tokens (L : Libm) (lc : Libc) (m : Main) : List (List Char) → C (Main × List Item)
  | [] => return (m, [])
  | t :: ts => do
    let (cal, out, stop) ← processToken L lc t m.cal m.results
    let m := { m with cal := cal }
    if stop then return (m, out)
    match ts with
    | [] => do
      let (m, out') ← m.finish L
      return (m, out ++ out')
    | _ :: _ => do
      let (m, out') ← Main.tokens L lc m ts
      return (m, out ++ out')

/-- example/calculator.c:2161-2215, one line. -/
def Main.line (L : Libm) (lc : Libc) (m : Main) (text : List Char) : C (Main × List Item) := do
  let m := { m with cal := { m.cal with stack := m.cal.stack.clear } }
  let (m, out) ← m.tokens L lc (strtok [] text)
  return (m, out ++ [.prompt])

/-- example/calculator.c:2160-2216, the loop over the lines; it is left when `getline` returns -1, and does not run more
often than the first argument says, which `calculatorMain` makes large enough (`calculator_program`). -/
def Main.loop (L : Libm) (lc : Libc) (A : Alloc) : ℕ → Main → Buf → List Char → C (List Item)
  | 0, _, _, _ => return []
  | n + 1, m, b, file => do
    let (b, file, r) ← getline A b file
    if r = -1 then return []
    let text ← cstr (b.ptr.getD [])
    let (m, out) ← m.line L lc text
    return out ++ (← Main.loop L lc A n m b file)

/-- example/calculator.c:2146, a number that is all zeros. -/
def Number.zero : Number := ⟨.log, .w8, fun _ w => 0#w.n, 0⟩

/-- example/calculator.c:2144-2157, the state at the start. -/
def Main.init : Main := ⟨⟨.log, .w64, Stack.init⟩, List.replicate 26 Number.zero, 0⟩

/-- example/calculator.c:2141-2223, `main`: what is printed for an input. -/
def calculatorMain (L : Libm) (lc : Libc) (A : Alloc) (file : List Char) : C (List Item) := do
  return .banner :: (← Main.loop L lc A (file.length + 1) Main.init ⟨none, 0⟩ file)

end Takum.Calc
