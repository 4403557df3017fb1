import Verif.Model.Codec

/-!
# The encoders of `src/codec.c` for the three supported formats of `long double`

`Model/Codec.lean` models the library where `long double` is the x87 80-bit format.  Here are the parts of
the encoders that depend on the format, for all formats the code supports (`LDBL_MANT_DIG` 53, 64, 113;
src/codec.c:462-490, 504-537, 850-852).  The macros `__BYTE_ORDER` and `__BIG_ENDIAN` are not defined
(no header that defines them is included), so that lines 469-470 and 478-481 are the ones compiled.
-/

namespace Takum

/-- The formats of `long double` distinguished by src/codec.c:462, 466, 475. -/
inductive LD
  | d53 | d64 | d113
  deriving DecidableEq

/-- The formats (src/codec.c:462, 466, 475: `LDBL_MANT_DIG` and `LDBL_MAX_EXP`). -/
def LD.fmt : LD → Fmt
  | .d53 => b64
  | .d64 => x80
  | .d113 => b128

/-- The IEEE binary128 encoding of a float (no repository code): 112 bits of fraction, 15 of exponent, the
sign; in memory little endian. -/
def Fl.bits128 (x : Fl) : BitVec 128 :=
  let s : ℕ := if x.sgn then 2 ^ 127 else 0
  match x with
  | .nan => 0x7fff8000000000000000000000000000#128
  | .inf _ => BitVec.ofNat 128 (s + 32767 * 2 ^ 112)
  | .zero _ => BitVec.ofNat 128 s
  | .num q =>
    let e := Int.log 2 |q|
    if -16382 ≤ e then
      BitVec.ofNat 128 (s + (e + 16383).toNat * 2 ^ 112 + ((|q| / (2 : ℚ) ^ (e - 112)).floor.toNat - 2 ^ 112))
    else
      BitVec.ofNat 128 (s + (|q| / (2 : ℚ) ^ (-16494 : ℤ)).floor.toNat)

/-- src/codec.c:504-537, the significand `F` and the exponent `q`, the latter being given as `frexpl` returns
it.  The field `fraction` of the union for the 128-bit format is at the bytes 6 to 13 (lines 478-481). -/
def ldFraction (v : LD) (f : Fl) (q : ℤ) : BitVec 64 × ℤ :=
  match v with
  | .d53 => (((0x000fffffffffffff#64 &&& f.bits64) <<< 11) ||| (1#64 <<< 63), q + 1)
  | .d64 => (f.bits80.setWidth 64, q)
  | .d113 => ((((f.bits128 >>> 48).setWidth 64) >>> 1) ||| (1#64 <<< 63), q + 1)

/-- src/codec.c:445-559, `extended_float_fraction_to_rounded_bits`. -/
def ldFractionToRoundedBits (v : LD) (f : Fl) (numBits : ℕ) : C (BitVec 64) :=
  if Fl.eq f (.zero false) || numBits == 0 then return 0#64
  else do
    let (F, q) := ldFraction v f f.frexp.2
    let F ← if -q < 64 then shrU F (-q) else pure 0#64
    utilRound F numBits

/-- src/codec.c:794-845, `codec_takum32_from_s_and_l`. -/
def ldTakum32FromSAndL (v : LD) (s : Bool) (l : Fl) : C (BitVec 32) :=
  fromSAndLGen 32 v.fmt 254.99999904632568359375 (ldFractionToRoundedBits v) s l

/-- src/codec.c:847-910, `codec_takum64_from_s_and_l`; the literal of lines 858-859 is rounded to the
format. -/
def ldTakum64FromSAndL (v : LD) (s : Bool) (l : Fl) : C (BitVec 64) :=
  fromSAndLGen 64 v.fmt (v.fmt.rq (254.999999999999999777955395074968691915273666381835938 : ℚ))
    (ldFractionToRoundedBits v) s l

end Takum
