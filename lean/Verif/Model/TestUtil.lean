import Verif.Spec
import Verif.Model.Families

/-!
# Model of the test harness `test/util.c`

The random number generator, the sampler and the loop that checks a function on the samples.  Not
modelled: the messages that are printed (the functions called for them, `takum*_to_extended_float`,
have no undefined behaviour and no effect on the result), the names of the functions, `argv0`.

`rand()` is an arbitrary stream of integers for each call of `run_unit_test_on_type`: the eight calls
in `run_unit_test_block` are operands of `+`, so that their order is unspecified, and the seed is the
time.  The floating-point exception flags that `evaluate_reference_function` reads are an arbitrary
function of its arguments.
-/

namespace Takum.Test
open Takum Spec

/-- The ways the test program ends early: undefined behaviour in a called function or here, a
division by zero, `exit(status)`; `fuel` marks a loop that has not ended after the given number of
rounds (no repository code). -/
inductive Stop
  | ub (u : UB)
  | divZero
  | exit (status : ℕ)
  | fuel
  deriving DecidableEq, Repr

/-- Result of a computation in the test program (no repository code). -/
abbrev R (α : Type) := Except Stop α

/-- A call of a function of the library or of this file that may have undefined behaviour (no
repository code). -/
def R.of {α : Type} : C α → R α
  | .ok a => .ok a
  | .error u => .error (.ub u)

/-- What the test program depends on besides its data: the mathematical library, the numbers returned
by `rand()` (test/util.c:64, 109, 154, 199) in each of the eight calls of `run_unit_test_on_type`, and
which of the exceptions underflow and overflow `fetestexcept` reports after the reference function was
evaluated (test/util.c:479, 487). -/
structure Env where
  L : Libm
  rand : Kind → W → ℕ → ℤ
  flags : Kind → W → ℤ → ℤ → Bool × Bool

/-! ## The random number generator -/

/-- The feedback bit as word (test/util.c:68-70, 113-115, 158-160, 203-205). -/
def feedback : (w : W) → T w → T w
  | .w8, s => ((s >>> 0) ^^^ (s >>> 2) ^^^ (s >>> 3) ^^^ (s >>> 4)) &&& 1#8
  | .w16, s => ((s >>> 0) ^^^ (s >>> 1) ^^^ (s >>> 3) ^^^ (s >>> 12)) &&& 1#16
  | .w32, s => ((s >>> 0) ^^^ (s >>> 10) ^^^ (s >>> 30) ^^^ (s >>> 31)) &&& 1#32
  | .w64, s => ((s >>> 0) ^^^ (s >>> 1) ^^^ (s >>> 3) ^^^ (s >>> 4)) &&& 1#64

/-- The next state, from a state that is not zero (test/util.c:68-76, 113-121, 158-166, 203-211).  The
shifts of the feedback bit are by 7, 15, 31 and 63 and of a value of at most 1: defined. -/
def lfsr (w : W) (s : T w) : T w := (feedback w s <<< (w.n - 1)) ||| (s >>> 1)

/-- test/util.c:37-215, `random_int8_next … random_int64_next`, and 217-240, `random_next`: the next
value and the number of calls of `rand()` so far.  The conversion of `previous_state` to `int8_t …` and
of `rand()` to `uint8_t …` keeps the low bits. -/
def randomNext (rand : ℕ → ℤ) (w : W) (prev : ℤ) (calls : ℕ) : ℤ × ℕ :=
  let s : T w := BitVec.ofInt w.n prev
  if s = 0#w.n then ((lfsr w (BitVec.ofInt w.n (rand calls))).toInt, calls + 1)
  else ((lfsr w s).toInt, calls)

/-! ## Parameters of the types -/

/-- `.nar` (test/util.c:338-419; takum.h:19-27). -/
def parNar (w : W) : ℤ := -2 ^ (w.n - 1)

/-- `.positive_minimum` (test/util.c:338-419; takum.h, `TAKUM*_POSITIVE_MINIMUM`: 1). -/
def parMin (_ : W) : ℤ := 1

/-- `.positive_maximum` (test/util.c:338-419; takum.h, `TAKUM*_POSITIVE_MAXIMUM`: the largest integer of
the type). -/
def parMax (w : W) : ℤ := 2 ^ (w.n - 1) - 1

/-- `.count` (test/util.c:338-419): for 64 bits `UINT64_MAX`. -/
def parCount : W → ℕ
  | .w8 => 255 + 1
  | .w16 => 65535 + 1
  | .w32 => 4294967295 + 1
  | .w64 => 18446744073709551615

/-- `.int64_takum_to_extended_float` (test/util.c:242-288). -/
def parTo (L : Libm) (k : Kind) (w : W) (t : ℤ) : C Fl :=
  match k with
  | .log => logTo L .ext w (BitVec.ofInt w.n t)
  | .lin => linTo .ext w (BitVec.ofInt w.n t)

/-- `.int64_takum_from_extended_float` (test/util.c:290-336). -/
def parFrom (L : Libm) (k : Kind) (w : W) (f : Fl) : C ℤ :=
  match k with
  | .log => do return (← logFrom L .ext w f).toInt
  | .lin => do return (← linFrom .ext w f).toInt

/-! ## Test blocks -/

/-- test/util.h:51-133, `struct unit_test_block` with its five types of data.  A function pointer that
may be `NULL` is an option; the eight function pointers are one function of the type. -/
inductive Block
  | roundtrip (f : Kind → (w : W) → Option (T w → C (T w)))
  | takumInt (ref : Fl → ℤ → Fl) (f : Kind → (w : W) → T w → ℤ → C (T w)) (cases : List ℤ)
  | unary (ref : Fl → Fl) (f : Kind → (w : W) → T w → C (T w))
  | binary (ref : Fl → Fl → Fl) (f : Kind → (w : W) → T w → T w → C (T w))
  | uint8 (ref : Fl → Kind → W → C ℕ) (f : Kind → (w : W) → T w → C ℕ)

/-- test/util.c:475-507: the end of `evaluate_reference_function`, from the value of the reference
function and the two flags. -/
def saturate (L : Libm) (k : Kind) (w : W) (raw : Fl) (flags : Bool × Bool) : C ℤ :=
  if flags.1 && Fl.eq raw (.zero false) then
    if raw.sgn then .ok (-parMin w) else .ok (parMin w)
  else if flags.2 then
    if Fl.lt (.zero false) raw then .ok (parMax w)
    else if Fl.eq raw (.zero false) then
      if raw.sgn then .ok (-parMin w) else .ok (parMin w)
    else .ok (-parMax w)
  else parFrom L k w raw

/-- test/util.c:420-508, `evaluate_reference_function`. -/
def evaluateReference (E : Env) (blk : Block) (a b : ℤ) (k : Kind) (w : W) : R ℤ := do
  let fa ← R.of (parTo E.L k w a)
  match blk with
  | .roundtrip _ => .error (.exit 1)
  | .takumInt ref _ _ => R.of (saturate E.L k w (ref fa b) (E.flags k w a b))
  | .unary ref _ => R.of (saturate E.L k w (ref fa) (E.flags k w a b))
  | .binary ref _ => do
    let fb ← R.of (parTo E.L k w b)
    R.of (saturate E.L k w (ref fa fb) (E.flags k w a b))
  | .uint8 ref _ => do
    let r ← R.of (ref fa k w)
    return (r : ℤ)

/-- test/util.c:806-813: the comparison up to one unit, with the sum and the difference computed in
`int64_t` and only if the comparisons before fail. -/
def deviates (output reference : ℤ) : C Bool :=
  if output ≠ reference then do
    let r1 ← chk 64 (reference + 1)
    if output ≠ r1 then do
      let r2 ← chk 64 (reference - 1)
      return decide (output ≠ r2)
    else return false
  else return false

/-- test/util.c:510-925, `check_unary_binary_case`: whether the case failed. -/
def checkCase (E : Env) (blk : Block) (a b : ℤ) (k : Kind) (w : W) : R Bool :=
  match blk with
  | .roundtrip f =>
    match f k w with
    | none => .ok false
    | some g => do
      let output ← R.of (g (BitVec.ofInt w.n a))
      return decide (output.toInt ≠ a)
  | .takumInt _ f _ => do
    let reference ← evaluateReference E blk a b k w
    let output ← R.of (f k w (BitVec.ofInt w.n a) b)
    R.of (deviates output.toInt reference)
  | .unary _ f => do
    let reference ← evaluateReference E blk a 0 k w
    let output ← R.of (f k w (BitVec.ofInt w.n a))
    R.of (deviates output.toInt reference)
  | .binary _ f => do
    let reference ← evaluateReference E blk a b k w
    let output ← R.of (f k w (BitVec.ofInt w.n a) (BitVec.ofInt w.n b))
    R.of (deviates output.toInt reference)
  | .uint8 _ f => do
    let reference ← evaluateReference E blk a 0 k w
    let output ← R.of (f k w (BitVec.ofInt w.n a))
    return decide ((output : ℤ) ≠ reference)

/-! ## The sampler -/

/-- test/util.c:18-25, `enum sampler_mode`. -/
inductive Mode
  | takumFull | takumRandom | takumTakumFull | takumTakumRandom | takumIntFull | takumIntRandom
  deriving DecidableEq, Repr

/-- test/util.c:27-35, `struct sampler`, without the type and the block, which do not change; `calls`
counts the calls of `rand()`. -/
structure Sampler where
  mode : Mode
  x : ℤ
  y : ℤ
  current : ℕ
  target : ℕ
  calls : ℕ
  deriving DecidableEq, Repr

/-- test/util.c:927-935, `safe_uint64_multiplication`. -/
def safeMul (a b : ℕ) : R ℕ :=
  if b = 0 then .error .divZero
  else if a ≥ (2 ^ 64 - 1) / b then .ok (2 ^ 64 - 1)
  else .ok (a * b % 2 ^ 64)

/-- test/util.c:937-1063, `sampler_init`.  The current count is the same in all branches and set at the
end in C. -/
def samplerInit (blk : Block) (w : W) (maximum : ℕ) : R Sampler :=
  match blk with
  | .roundtrip _ | .unary _ _ | .uint8 _ _ =>
    if parCount w ≤ maximum then .ok ⟨.takumFull, parNar w, parNar w, 1, parCount w, 0⟩
    else .ok ⟨.takumRandom, 0, parNar w, 1, maximum, 0⟩
  | .takumInt _ _ cases => do
    let full ← safeMul (parCount w) cases.length
    let y0 ← R.of (lut cases 0)
    if full ≤ maximum then .ok ⟨.takumIntFull, parNar w, y0, 1, full, 0⟩
    else .ok ⟨.takumIntRandom, 0, y0, 1, maximum, 0⟩
  | .binary _ _ => do
    let full ← safeMul (parCount w) (parCount w)
    if full ≤ maximum then .ok ⟨.takumTakumFull, parNar w, parNar w, 1, full, 0⟩
    else .ok ⟨.takumTakumRandom, 0, 0, 1, maximum, 0⟩

/-- test/util.c:1128-1137, 1175-1184: the offset of the first test case that equals the value, or the
number of test cases. -/
def caseIndex (cases : List ℤ) (y : ℤ) : ℕ := cases.idxOf y

/-- The test cases of a block (test/util.h:84-85); there are none in the blocks of other types, for
which the modes that use them do not occur. -/
def Block.cases : Block → List ℤ
  | .takumInt _ _ cases => cases
  | _ => []

/-- test/util.c:1065-1221, `sampler_next`: `none` for the return value 1. -/
def samplerNext (rand : ℕ → ℤ) (blk : Block) (w : W) (s : Sampler) : R (Option Sampler) :=
  let counted : Sampler := { s with current := (s.current + 1) % 2 ^ 64 }
  match s.mode with
  | .takumFull =>
    if s.x = parMax w then .ok none
    else do
      let x ← R.of (chk 64 (s.x + 1))
      return some { counted with x := x }
  | .takumRandom =>
    if s.current ≥ s.target then .ok none
    else
      let r := randomNext rand w s.x s.calls
      .ok (some { counted with x := r.1, calls := r.2 })
  | .takumTakumFull =>
    if s.y = parMax w then
      if s.x = parMax w then .ok none
      else do
        let x ← R.of (chk 64 (s.x + 1))
        return some { counted with x := x, y := parNar w }
    else do
      let y ← R.of (chk 64 (s.y + 1))
      return some { counted with y := y }
  | .takumTakumRandom =>
    if s.current ≥ s.target then .ok none
    else
      let r := randomNext rand w s.x s.calls
      let q := randomNext rand w s.y r.2
      .ok (some { counted with x := r.1, y := q.1, calls := q.2 })
  | .takumIntFull =>
    let i := caseIndex blk.cases s.y
    if i = blk.cases.length then .error (.exit 1)
    else if i = blk.cases.length - 1 then
      if s.x = parMax w then .ok none
      else do
        let y ← R.of (lut blk.cases 0)
        let x ← R.of (chk 64 (s.x + 1))
        return some { counted with x := x, y := y }
    else do
      let y ← R.of (lut blk.cases (i + 1))
      return some { counted with y := y }
  | .takumIntRandom =>
    if s.current ≥ s.target then .ok none
    else
      let i := caseIndex blk.cases s.y
      if i = blk.cases.length then .error (.exit 1)
      else if i = blk.cases.length - 1 then do
        let y ← R.of (lut blk.cases 0)
        let r := randomNext rand w s.x s.calls
        return some { counted with x := r.1, y := y, calls := r.2 }
      else do
        let y ← R.of (lut blk.cases (i + 1))
        return some { counted with y := y }

/-! ## The test loop -/

/-- test/util.c:1243-1247: the loop, with the number of failures so far, for at most the given number of
rounds. -/
def testLoop (E : Env) (blk : Block) (k : Kind) (w : W) : ℕ → Sampler → ℕ → R ℕ
  | 0, _, _ => .error .fuel
  | n + 1, s, failed => do
    let c ← checkCase E blk s.x s.y k w
    let failed := (failed + (if c then 1 else 0)) % 2 ^ 64
    match ← samplerNext (E.rand k w) blk w s with
    | none => return failed
    | some s' => testLoop E blk k w n s' failed

/-- What `run_unit_test_on_type` returns and prints (test/util.c:1249-1253): the status and the numbers
of passed tests and of all tests. -/
structure Report where
  status : ℕ
  passed : ℕ
  total : ℕ
  deriving DecidableEq, Repr

/-- test/util.c:1223-1254, `run_unit_test_on_type`.  The number of rounds of the loop is limited by the
target count (and 1, for a target of 0, where the loop body runs once); reaching the limit would be
reported as `Stop.fuel`. -/
def runType (E : Env) (blk : Block) (k : Kind) (w : W) (maximum : ℕ) : R Report := do
  let s ← samplerInit blk w maximum
  let failed ← testLoop E blk k w (max 1 s.target) s 0
  return ⟨if failed > 0 then 1 else 0, (s.target + 2 ^ 64 - failed) % 2 ^ 64, s.target⟩

/-- test/util.c:1256-1274, `run_unit_test_block`.  The operands of `+` are evaluated here from left to
right; they are independent but for `rand()`. -/
def runBlock (E : Env) (blk : Block) : R ℕ := do
  let maximum := 2 ^ 22
  let a ← runType E blk .log .w8 maximum
  let b ← runType E blk .log .w16 maximum
  let c ← runType E blk .log .w32 maximum
  let d ← runType E blk .log .w64 maximum
  let e ← runType E blk .lin .w8 maximum
  let f ← runType E blk .lin .w16 maximum
  let g ← runType E blk .lin .w32 maximum
  let h ← runType E blk .lin .w64 maximum
  return a.status + b.status + c.status + d.status + e.status + f.status + g.status + h.status

end Takum.Test
