import Verif.Model.Codec

/-!
# Model of the function of `src/codec.c` that is never called
-/

namespace Takum

/-- The IEEE binary32 encoding (no repository code; see `Fl.bits64`). -/
def Fl.bits32 (x : Fl) : BitVec 32 :=
  let s : ℕ := if x.sgn then 2 ^ 31 else 0
  match x with
  | .nan => 0x7fc00000#32
  | .inf _ => BitVec.ofNat 32 (s + 255 * 2 ^ 23)
  | .zero _ => BitVec.ofNat 32 s
  | .num q =>
    let e := Int.log 2 |q|
    if -126 ≤ e then
      BitVec.ofNat 32 (s + (e + 127).toNat * 2 ^ 23 + ((|q| / (2 : ℚ) ^ (e - 23)).floor.toNat - 2 ^ 23))
    else
      BitVec.ofNat 32 (s + (|q| / (2 : ℚ) ^ (-149 : ℤ)).floor.toNat)

/-- src/codec.c:337-389, `float32_fraction_to_rounded_bits`. -/
def float32FractionToRoundedBits (f : Fl) (numBits : ℕ) : C (BitVec 32) :=
  if Fl.eq f (.zero false) || numBits == 0 then return 0#32
  else do
    let F := (f.bits32 &&& ((1#32 <<< 23) - 1#32)) ||| (1#32 <<< 23)
    let F := F <<< (9 - 1)
    let q := f.frexp.2
    let F ← if -q < 32 then shrU F (-q) else pure 0#32
    utilRound F numBits

end Takum
