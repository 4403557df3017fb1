import Verif.Sqrt
import Verif.Model.Conversion

/-!
# Model of precision, sign, absolute, inversion, multiplication, division, square root, integer
power and root
-/

namespace Takum

/-- src/precision.c:13-30, `p_lut` (a table of its own). -/
def precisionLut : List ℕ := [4, 5, 6, 7, 8, 9, 10, 11, 11, 10, 9, 8, 7, 6, 5, 4]

/-- src/precision.c:32-121, `takum8_precision … takum64_precision`; also lines 123-149, the linear
versions, which call the former. -/
def precision : (w : W) → T w → C ℕ
  | .w8, t =>
    if t = 0#8 ∨ t = NAR 8 then .ok 0
    else do
      let p ← lut precisionLut ((t &&& 0x78#8) >>> 3).toNat
      return if p < 8 then 0 else p - 8
  | .w16, t =>
    if t = 0#16 ∨ t = NAR 16 then .ok 4
    else lut precisionLut ((t &&& 0x7800#16) >>> 11).toNat
  | .w32, t =>
    if t = 0#32 ∨ t = NAR 32 then .ok 20
    else do
      let p ← lut precisionLut ((t &&& 0x78000000#32) >>> 27).toNat
      return p + 16
  | .w64, t =>
    if t = 0#64 ∨ t = NAR 64 then .ok 52
    else do
      let p ← lut precisionLut ((t &&& 0x7800000000000000#64) >>> 59).toNat
      return p + 48

/-- src/sign.c:6-76, `takum8_sign … takum64_sign`, `takum_linear8_sign … takum_linear64_sign`. -/
def sign (w : W) (t : T w) : T w :=
  if t = NAR w.n then NAR w.n
  else if isNeg t then -ONE w
  else if isPos t then ONE w
  else 0#w.n

/-- src/sign.c:6-76, the same functions with the negation `-TAKUM*_ONE` written out: it is computed in
`int` for 8, 16 and 32 bits and in 64 bits for 64. -/
def signC (w : W) (t : T w) : C (T w) :=
  if t = NAR w.n then .ok (NAR w.n)
  else if isNeg t then do
    let v ← chk (max w.n 32) (-(ONE w).toInt)
    return BitVec.ofInt w.n v
  else if isPos t then .ok (ONE w)
  else .ok 0#w.n

/-- src/absolute.c:6-52, `takum8_absolute … takum_linear64_absolute`:
`(t < 0) * (-t) + (t >= 0) * t`, computed in `int` for 8, 16 and 32 bits and in 64 bits for 64; the
result is converted to the return type (wrapping). -/
def absolute (w : W) (t : T w) : C (T w) := do
  let b := max w.n 32
  let x := t.toInt
  let negx ← chk b (-x)
  let u ← chk b (b2i (isNeg t) * negx)
  let v ← chk b (b2i (decide (0 ≤ x)) * x)
  let r ← chk b (u + v)
  return BitVec.ofInt w.n r

/-- src/inversion.c:6-52, `takum8_inversion … takum64_inversion`; the constants are
`0x7f … 0x7fffffffffffffff`. -/
def inversion : (w : W) → T w → T w
  | .w8, t => if t = NAR 8 then NAR 8 else (t ^^^ 0x7f#8) + 1#8
  | .w16, t => if t = NAR 16 then NAR 16 else (t ^^^ 0x7fff#16) + 1#16
  | .w32, t => if t = NAR 32 then NAR 32 else (t ^^^ 0x7fffffff#32) + 1#32
  | .w64, t => if t = NAR 64 then NAR 64 else (t ^^^ 0x7fffffffffffffff#64) + 1#64

/-- src/inversion.c:6-52, the same functions with the addition `(out.bits ^ 0x7f…) + 1` written out: for 8
and 16 bits it is computed in `int` and converted back, for 32 and 64 bits it is unsigned and wraps. -/
def inversionC (w : W) (t : T w) : C (T w) := do
  let mask : T w := BitVec.ofInt w.n (2 ^ (w.n - 1) - 1)
  let out ← if w.n < 32 then do
      let v ← chk 32 ((t ^^^ mask).toNat + 1)
      pure (BitVec.ofInt w.n v)
    else pure ((t ^^^ mask) + 1#w.n)
  return if t = NAR w.n then NAR w.n else out

/-- src/multiplication.c:16-46, `takum8_multiplication … takum64_multiplication`. -/
def multiplication (w : W) (a b : T w) : C (T w) := do
  let la ← toL w a
  let lb ← toL w b
  fromSAndL w (isPos a != isPos b) (Fl.add w.lF la lb)

/-- src/division.c:16-46, `takum8_division … takum64_division`. -/
def division (w : W) (a b : T w) : C (T w) := do
  let la ← toL w a
  let lb ← toL w b
  fromSAndL w (isPos a != isPos b) (Fl.sub w.lF la lb)

/-- src/square_root.c:13-55, `takum8_square_root … takum64_square_root` (`ldexpf`, `ldexpf`,
`ldexp`, `ldexpl`). -/
def squareRoot (w : W) (t : T w) : C (T w) :=
  if isNeg t then .ok (NAR w.n)
  else do
    let l ← toL w t
    fromSAndL w false (Fl.ldexp w.lF l (-1))

/-- src/integer_power.c:73-77 and the same lines of the other functions: replace infinite and zero
results. -/
def intPowFix {n : ℕ} (t : BitVec n) (k : ℤ) (res : Fl) : Fl :=
  if res.isinf then (if Fl.lt (.zero false) res then DBL_MAX else DBL_MAX.neg)
  else if Fl.eq res (.zero false) && t != 0#n then
    (if isNeg t && odd k then DBL_MIN.neg else DBL_MIN)
  else res

/-- src/integer_power.c:24-55, `takum8_integer_power`, `takum16_integer_power`,
`takum32_integer_power`: `l * n` with `n` converted to the type of `l`. -/
def integerPowerL (w : W) (t : T w) (n : BitVec 64) : C (T w) :=
  if t = 0#w.n ∧ n.toInt ≤ 0 then .ok (NAR w.n)
  else do
    let l ← toL w t
    fromSAndL w (isNeg t && odd n.toInt) (Fl.mul w.lF l (Fl.ofInt w.lF n.toInt))

/-- src/integer_power.c:57-80, `takum64_integer_power`. -/
def integerPower64 (L : Libm) (t : T .w64) (n : BitVec 64) : C (T .w64) :=
  if t = NAR 64 ∨ (t = 0#64 ∧ n.toInt ≤ 0) then .ok (NAR 64)
  else do
    let f ← toExtended L .w64 t
    let res := L.pow x80 f (Fl.ofInt x80 n.toInt)
    fromExtended L .w64 (intPowFix t n.toInt res)

/-- src/integer_power.c:24-80, `takum8_integer_power … takum64_integer_power`. -/
def integerPower (L : Libm) : (w : W) → T w → BitVec 64 → C (T w)
  | .w8, t, n => integerPowerL .w8 t n
  | .w16, t, n => integerPowerL .w16 t n
  | .w32, t, n => integerPowerL .w32 t n
  | .w64, t, n => integerPower64 L t n

/-- src/integer_power.c:82-164, `takum_linear8_integer_power … takum_linear64_integer_power`. -/
def linIntegerPower (L : Libm) (w : W) (t : T w) (n : BitVec 64) : C (T w) :=
  if t = NAR w.n ∨ (t = 0#w.n ∧ n.toInt ≤ 0) then .ok (NAR w.n)
  else do
    let f ← linToExtended w t
    let res := L.pow x80 f (Fl.ofInt x80 n.toInt)
    linFromExtended w (intPowFix t n.toInt res)

/-- src/root.c:24-66, `takum8_root … takum64_root`: `l / n` with `n` converted to the type of `l`. -/
def root (w : W) (t : T w) (n : BitVec 64) : C (T w) :=
  if n = 0#64 ∨ (isNeg t ∧ ¬ odd n.toInt) ∨ (t = 0#w.n ∧ n.toInt < 0) then .ok (NAR w.n)
  else do
    let l ← toL w t
    fromSAndL w (isNeg t) (Fl.div w.lF l (Fl.ofInt w.lF n.toInt))

/-- src/root.c:68-142, `takum_linear8_root … takum_linear64_root`. -/
def linRoot (L : Libm) (w : W) (t : T w) (n : BitVec 64) : C (T w) :=
  if n = 0#64 ∨ (isNeg t ∧ ¬ odd n.toInt) then .ok (NAR w.n)
  else do
    let f ← linToExtended w t
    let res := L.pow x80 f (Fl.div x80 (.num 1) (Fl.ofInt x80 n.toInt))
    let res :=
      if Fl.eq res (.zero false) && t != 0#w.n then
        (if isNeg t && odd n.toInt then DBL_MIN.neg else DBL_MIN)
      else res
    linFromExtended w res

end Takum
