import Verif.Model.Util

/-!
# Model of `src/codec.c` (and of the takum-to-takum part of `src/conversion.c`)

Conversions to a wider floating type are exact and are the identity on `Fl`; they are not written
out.  `long double` is the x87 80-bit format (`LDBL_MANT_DIG == 64`) in this file.
-/

namespace Takum

/-- src/codec.c:16-33, `c_bias_lut`. -/
def cBiasLut : List ℤ :=
  [-255, -127, -63, -31, -15, -7, -3, -1, 0, 1, 3, 7, 15, 31, 63, 127]

/-- src/codec.c:40-57, `p_lut`. -/
def pLut : List ℕ := [4, 5, 6, 7, 8, 9, 10, 11, 11, 10, 9, 8, 7, 6, 5, 4]

/-- src/codec.c:59-81, `get_c_and_return_shift`: the characteristic `c` and the shift `16 - p`. -/
def getCAndReturnShift (inp : BitVec 16) : C (ℤ × ℤ) := do
  let DR := ((inp &&& 0x7800#16) >>> 11).toNat
  let p ← lut pLut DR
  let b ← lut cBiasLut DR
  let cb ← shrU (inp &&& 0x07ff#16) p
  pure (b + cb.toNat, 16 - (p : ℤ))

/-- The floating type returned by `codec_takum*_to_l` (src/codec.h:9-12). -/
def W.lF : W → Fmt
  | .w8 => b32
  | .w16 => b32
  | .w32 => b64
  | .w64 => x80

/-- The 16-bit fragment passed to `get_c_and_return_shift` (src/codec.c:103, 135, 166, 198). -/
def frag : (w : W) → T w → BitVec 16
  | .w8, t => t.setWidth 16 <<< 8
  | .w16, t => t
  | .w32, t => (t >>> 16).setWidth 16
  | .w64, t => (t >>> 48).setWidth 16

/-- src/codec.c:83-113, 115-145, 147-176, 178-216, `codec_takum8_to_l … codec_takum64_to_l`.
The computation is in `float`, `float`, `double`, `long double` respectively. -/
def toL (w : W) (t : T w) : C Fl := do
  if t = 0#w.n then
    return .inf true
  if t = NAR w.n then
    return .nan
  let (c, shift) ← getCAndReturnShift (frag w t)
  let M ← shl t shift
  let F := w.lF
  return Fl.mul F (Fl.ofInt F (1 - 2 * b2i (isNeg t)))
    (Fl.add F (Fl.ofInt F c) (Fl.ldexp F (Fl.ofInt F M.toNat) (-w.n)))

/-- src/codec.c:225-269 and 271-315, the common part of `codec_s_and_linear_l_to_float64` and
`codec_s_and_linear_l_to_extended_float`: the two functions have the same body but for the final
conversion to `double`.  `c`, `e`, `h` are of type `int16_t`, computed in `int`; the conversion of
an `int` to `int16_t` wraps (implementation-defined). -/
def sAndLinearL (s : Bool) (l : Fl) : C Fl := do
  if l.isnan || (l.isinf && Fl.lt (.zero false) l) then
    return .nan
  if l.isinf && Fl.lt l (.zero false) then
    return .zero false
  let cpm := if s then l.neg else l
  let c ← Fl.toInt 16 (Fl.floor cpm)
  let m := Fl.sub x80 cpm (Fl.ofInt x80 c)
  let (c, m) : ℤ × Fl :=
    if Fl.eq m (.num 1) then ((BitVec.ofInt 16 (c + 1)).toInt, .zero false) else (c, m)
  let f := m
  let e := (BitVec.ofInt 16 ((1 - 2 * b2i s) * (c + b2i s))).toInt
  let (h, g) : ℤ × Fl :=
    if s then
      if Fl.eq f (.zero false) then ((BitVec.ofInt 16 (e + 1)).toInt, .zero false)
      else (e, Fl.sub x80 (.num 1) f)
    else (e, f)
  return Fl.mul x80 (Fl.ofInt x80 (1 - 2 * b2i s)) (Fl.ldexp x80 (Fl.add x80 (.num 1) g) h)

/-- src/codec.c:225-269, `codec_s_and_linear_l_to_float64`. -/
def sAndLinearLToFloat64 (s : Bool) (l : Fl) : C Fl := do
  let r ← sAndLinearL s l
  return Fl.cast b64 r

/-- src/codec.c:271-315, `codec_s_and_linear_l_to_extended_float`. -/
def sAndLinearLToExtended (s : Bool) (l : Fl) : C Fl := sAndLinearL s l

/-- src/codec.c:328-332, the loop of `get_DR_from_c` with `k = 15 - DR` iterations left. -/
def getDRLoop (c : ℤ) : ℕ → C ℕ
  | 0 => .ok 15
  | k + 1 => do
    let b ← lut cBiasLut (15 - k)
    if c < b then return 14 - k else getDRLoop c k

/-- src/codec.c:317-335, `get_DR_from_c`. -/
def getDRFromC (c : ℤ) : C ℕ := getDRLoop c (if 0 ≤ c then 7 else 15)

/-- src/codec.c:391-443, `float64_fraction_to_rounded_bits`. -/
def float64FractionToRoundedBits (f : Fl) (numBits : ℕ) : C (BitVec 64) :=
  if Fl.eq f (.zero false) || numBits == 0 then return 0#64
  else do
    let F := (f.bits64 &&& ((1#64 <<< 52) - 1#64)) ||| (1#64 <<< 52)
    let F := F <<< (12 - 1)
    let q := f.frexp.2
    let F ← if -q < 64 then shrU F (-q) else pure 0#64
    utilRound F numBits

/-- src/codec.c:445-559, `extended_float_fraction_to_rounded_bits` for the 80-bit format
(lines 466-474, 515-517); the field `fraction` of the union is the 64-bit significand. -/
def extendedFractionToRoundedBits (f : Fl) (numBits : ℕ) : C (BitVec 64) :=
  if Fl.eq f (.zero false) || numBits == 0 then return 0#64
  else do
    let q := f.frexp.2
    let F := f.bits80.setWidth 64
    let F ← if -q < 64 then shrU F (-q) else pure 0#64
    utilRound F numBits

/-- src/codec.c:567-620, 622-675, 677-730, `codec_linear_l_from_float32`,
`codec_linear_l_from_float64`, `codec_linear_l_from_extended_float`: the same body, computing in
`double` for `float` arguments and in `long double` for the others.  `F` is the type computed in.
`c` is an `int16_t`. -/
def linearLFrom (F : Fmt) (f : Fl) : C Fl := do
  if f.isnan || f.isinf then
    return .nan
  if Fl.eq f (.zero false) then
    return .inf true
  let s : Bool := Fl.lt f (.zero false)
  let f := if s then f.neg else f
  let (g, h) := f.frexp
  let g := Fl.sub F (Fl.mul F (Fl.ofInt F 2) g) (.num 1)
  let h := h - 1
  let (c, m) : ℤ × Fl :=
    if s then
      if Fl.eq g (.zero false) then (-h, .zero false)
      else (-h - 1, Fl.sub F (.num 1) g)
    else (h, g)
  let c := (BitVec.ofInt 16 c).toInt
  return Fl.mul F (Fl.ofInt F (1 - 2 * b2i s)) (Fl.add F (Fl.ofInt F c) m)

/-- src/codec.c:567-620, `codec_linear_l_from_float32`. -/
def linearLFromFloat32 (f : Fl) : C Fl := linearLFrom b64 f
/-- src/codec.c:622-675, `codec_linear_l_from_float64`. -/
def linearLFromFloat64 (f : Fl) : C Fl := linearLFrom x80 f
/-- src/codec.c:677-730, `codec_linear_l_from_extended_float`. -/
def linearLFromExtended (f : Fl) : C Fl := linearLFrom x80 f

/-- src/codec.c:738-792, 794-845, 847-910, the common body of `codec_takum16_from_s_and_l`,
`codec_takum32_from_s_and_l` and `codec_takum64_from_s_and_l`.  Parameters: the number of bits, the
floating type computed in, the constant `bound`, and the function producing the mantissa bits.
For 16 bits the last expression is of type `int` and is then converted to `takum16`; no bits are
lost below bit 16, so that computing with 16 bits gives the same result. -/
def fromSAndLGen (n : ℕ) (F : Fmt) (bound : ℚ) (fracBits : Fl → ℕ → C (BitVec 64))
    (s : Bool) (l : Fl) : C (BitVec n) := do
  if l.isnan || (l.isinf && Fl.lt (.zero false) l) then
    return NAR n
  if l.isinf && Fl.lt l (.zero false) then
    return 0#n
  let l := if Fl.lt l (Fl.num bound).neg then (Fl.num bound).neg
    else if Fl.lt (.num bound) l then .num bound else l
  let cpm := Fl.mul F (Fl.ofInt F (1 - 2 * b2i s)) l
  let c ← Fl.toInt 64 (Fl.floor cpm)
  let m := Fl.sub F cpm (Fl.ofInt F c)
  let (c, m) : ℤ × Fl := if Fl.eq m (.num 1) then (c + 1, .zero false) else (c, m)
  let DR ← getDRFromC c
  let p16 ← lut pLut DR
  let p := p16 + (n - 16)
  let M ← fracBits m p
  let b ← lut cBiasLut DR
  let sBits ← shl (BitVec.ofInt n (b2i s)) (n - 1)
  let dBits ← shl (BitVec.ofNat n DR) (n - 5)
  let cBits ← shl (BitVec.ofInt n (c - b)) p
  return (sBits ||| dBits ||| cBits) + M.setWidth n

/-- src/codec.c:738-792, `codec_takum16_from_s_and_l` (the bound is on line 746). -/
def takum16FromSAndL (s : Bool) (l : Fl) : C (BitVec 16) :=
  fromSAndLGen 16 b64 254.9375 float64FractionToRoundedBits s l

/-- src/codec.c:794-845, `codec_takum32_from_s_and_l` (the bound is on line 802). -/
def takum32FromSAndL (s : Bool) (l : Fl) : C (BitVec 32) :=
  fromSAndLGen 32 x80 254.99999904632568359375 extendedFractionToRoundedBits s l

/-- src/codec.c:847-910, `codec_takum64_from_s_and_l` (the bound is on lines 858-859; as a literal
of type `long double` it is rounded to the nearest value of that type). -/
def takum64FromSAndL (s : Bool) (l : Fl) : C (BitVec 64) :=
  fromSAndLGen 64 x80
    (x80.rq (254.999999999999999777955395074968691915273666381835938 : ℚ))
    extendedFractionToRoundedBits s l

/-- src/conversion.c:10-21, the macro `TAKUM_INTERNAL_CONVERT_EXPAND(FROM, TO)`, used by
`takum16_from_takum8` and the others (conversion.c:285-302, 335-345, 384-388, 482-498, 531-541,
580-584; the same for linear takums). -/
def expand (a b : W) (t : T a) : C (T b) := shl (t.setWidth b.n) ((b.n : ℤ) - a.n)

/-- src/conversion.c:23-41, the macro `TAKUM_INTERNAL_CONVERT_REDUCE(FROM, TO)`, used by
`takum8_from_takum16` and the others (conversion.c:328-333, 371-382, 414-431, 525-529, 568-578,
611-627; the same for linear takums).  The saturation term is an `int`, added modulo `2^TO`. -/
def reduce (a b : W) (t : T a) : C (T b) := do
  let o ← utilRound t b.n
  let out : T b := o.setWidth b.n
  let fix : ℤ :=
    (b2i (out == 0#b.n && t != 0#a.n) - b2i (out == NAR b.n && t != NAR a.n)) * (1 - 2 * b2i (isNeg t))
  return out + BitVec.ofInt b.n fix

/-- src/codec.c:732-736, `codec_takum8_from_s_and_l`. -/
def takum8FromSAndL (s : Bool) (l : Fl) : C (BitVec 8) := do
  let t ← takum32FromSAndL s l
  reduce .w32 .w8 t

/-- `codec_takum8_from_s_and_l … codec_takum64_from_s_and_l` (src/codec.h:21-24). -/
def fromSAndL : (w : W) → Bool → Fl → C (T w)
  | .w8 => takum8FromSAndL
  | .w16 => takum16FromSAndL
  | .w32 => takum32FromSAndL
  | .w64 => takum64FromSAndL

end Takum
