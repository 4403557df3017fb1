import Verif.Model.Kinds

/-!
# example/calculator.c: the stack, the evaluation of a line, the integer marker

Simplified: the contents of a number are a type parameter of the stack; the text of a token is replaced by
what `process_token` makes of it; `size_t` is unbounded (a stack of 2^64 bytes cannot be allocated).
An access through a null pointer or to an uninitialised element counts as an access out of bounds.
-/

namespace Takum.Calc
open Spec (Kind)

variable {α : Type}

/-- example/calculator.c:572-576, `struct stack`; `data` is the block from `realloc`, `none` the null pointer,
an element `none` uninitialised. -/
structure Stack (α : Type) where
  data : Option (List (Option α))
  size : ℕ
  capacity : ℕ

/-- example/calculator.c:578-584, `stack_init`. -/
def Stack.init : Stack α := ⟨none, 0, 0⟩

/-- example/calculator.c:586-593, `stack_free`. -/
def Stack.free (_ : Stack α) : Stack α := ⟨none, 0, 0⟩

/-- example/calculator.c:2162, `stack.size = 0` before a line is read. -/
def Stack.clear (s : Stack α) : Stack α := { s with size := 0 }

/-- What a call reports. -/
inductive Out (α : Type)
  | done            -- 0
  | failed          -- 1 from `stack_push`
  | underflow       -- 1 from `stack_pop`
  | got (x : α)     -- 0 from `stack_pop`, and the number pointed to
  deriving DecidableEq

/-- `realloc` to `n` elements. -/
def grow (d : Option (List (Option α))) (n : ℕ) : List (Option α) :=
  (d.getD []).take n ++ List.replicate (n - (d.getD []).length) none

/-- example/calculator.c:611, `memcpy(&(stack->data[stack->size++]), …)`. -/
def Stack.store (s : Stack α) (x : α) : C (Stack α × Out α) :=
  match s.data with
  | none => .error .index
  | some b =>
    if s.size < b.length then .ok ({ s with data := some (b.set s.size (some x)), size := s.size + 1 }, .done)
    else .error .index

/-- example/calculator.c:595-614, `stack_push`; `ok` is whether `realloc` succeeds if it is called. -/
def Stack.push (ok : Bool) (s : Stack α) (x : α) : C (Stack α × Out α) :=
  if s.size = s.capacity then
    if ok then { s with data := some (grow s.data (s.capacity + 1)), capacity := s.capacity + 1 }.store x
    else .ok (⟨none, s.size, s.capacity + 1⟩, .failed)
  else s.store x

/-- example/calculator.c:616-626, `stack_pop`, and the read through the pointer, which all callers do before
the next `stack_push`. -/
def Stack.pop (s : Stack α) : C (Stack α × Out α) :=
  if s.size = 0 then .ok (s, .underflow)
  else
    match s.data with
    | none => .error .index
    | some b =>
      match b[s.size - 1]? with
      | some (some x) => .ok ({ s with size := s.size - 1 }, .got x)
      | _ => .error .index

/-- A call on the stack. -/
inductive Op (α : Type)
  | push (ok : Bool) (x : α)
  | pop
  | clear

/-- One call. -/
def step (s : Stack α) : Op α → C (Stack α × Out α)
  | .push ok x => s.push ok x
  | .pop => s.pop
  | .clear => .ok (s.clear, .done)

/-- A sequence of calls with everything that they report. -/
def run (s : Stack α) : List (Op α) → C (Stack α × List (Out α))
  | [] => .ok (s, [])
  | o :: os => do
    let (s, r) ← step s o
    let (s, rs) ← run s os
    return (s, r :: rs)

/-! ## A line -/

/-- What `process_token` makes of a token (example/calculator.c:1546-2139). -/
inductive Tok (α : Type)
  | stop                            -- `?` and the type switches: return 1 (1623, 1850)
  | num (x : Option α)              -- a number (2132-2136) or an invalid token; also a register (1557-1563)
  | un (f : α → α)                  -- one argument: `precision` and OPERATOR_TYPE_TAKUM_TAKUM (1757-1843, 1950-2029)
  | bin (f : α → α → Option α)      -- two arguments; `none`: an exponent that is not integral (1853-1857)

/-- example/calculator.c:1546-2139, `process_token`: the new stack and whether the rest of the line is skipped.
`realloc` succeeds. -/
def token (s : Stack α) : Tok α → C (Stack α × Bool)
  | .stop => .ok (s, true)
  | .num none => .ok (s, true)
  | .num (some x) => do
    let (s, r) ← s.push true x
    return (s, match r with | .failed => true | _ => false)
  | .un f => do
    let (s, r) ← s.pop
    match r with
    | .got a => do
      let (s, r) ← s.push true (f a)
      return (s, match r with | .failed => true | _ => false)
    | _ => return (s, true)
  | .bin f => do
    let (s, r) ← s.pop
    match r with
    | .got b => do
      let (s, r) ← s.pop
      match r with
      | .got a =>
        match f a b with
        | none => return (s, true)
        | some x => do
          let (s, r) ← s.push true x
          return (s, match r with | .failed => true | _ => false)
      | _ => return (s, true)
    | _ => return (s, true)

/-- example/calculator.c:2166-2212, the loop over the tokens of a line after the first `strtok`; the result is
the number printed, if any. -/
def loop (s : Stack α) : List (Tok α) → C (Stack α × Option α)
  | [] => .ok (s, none)
  | t :: ts => do
    let (s, stop) ← token s t
    if stop then return (s, none)
    match ts with
    | [] =>
      if s.size ≠ 1 then return (s, none)
      let (s, r) ← s.pop
      return (s, match r with | .got x => some x | _ => none)
    | _ :: _ => loop s ts

/-- example/calculator.c:2162-2212, one line. -/
def line (s : Stack α) (ts : List (Tok α)) : C (Stack α × Option α) := loop s.clear ts

/-- example/calculator.c:2141-2223, `main`: lines until the end of the input, with what each prints. -/
def lines (s : Stack α) : List (List (Tok α)) → C (Stack α × List (Option α))
  | [] => .ok (s, [])
  | t :: ts => do
    let (s, r) ← line s t
    let (s, rs) ← lines s ts
    return (s, r :: rs)

/-! ## The integer marker -/

/-- `INT64_MAX`, which marks a number as not integral. -/
def INT64_MAX : ℤ := 2 ^ 63 - 1

/-- example/calculator.c:278-286, 308-316, 338-346, 368-376: `integer_value` in `number_from_takumN`. -/
def integerValueLog (w : W) (t : T w) : ℤ :=
  if t = 0#w.n then 0 else if t = ONE w then 1 else if t = -ONE w then -1 else INT64_MAX

/-- example/calculator.c:400-405, 432-437, 464-469, 496-501: `integer_value` in `number_from_takum_linearN`; the
number is converted to `double`, for 64 bits to `long double`. -/
def integerValueLin (w : W) (t : T w) : C ℤ := do
  let f ← if w = .w64 then linToExtended w t else linToFloat64 w t
  let i ← Fl.toInt 64 f
  return if Fl.eq f (Fl.ofInt (if w = .w64 then x80 else b64) i) then i else INT64_MAX

end Takum.Calc
