import Verif.Model.Calculator

/-!
# example/util.c: `getline`

A byte is a `Char` (the model never looks at more than `'\n'` and `'\0'`); the file is the list of bytes that
are still to be read, and reading from it does not fail before the end. `size_t` has 64 bits. The check of the
arguments for null pointers (17-20) is left out, as the only caller passes addresses (calculator.c:2160).
A write outside the block counts as an access out of bounds.
-/

namespace Takum.Calc

/-- What `getline` gets from the platform: `BUFSIZ`, and which sizes `malloc` and `realloc` deliver during the
call. -/
structure Alloc where
  bufsiz : ℕ
  ok : ℕ → Bool

/-- `*lineptr` with the contents of the block it points to (`none` where nothing has been written), and `*n`. -/
structure Buf where
  ptr : Option (List (Option Char))
  n : ℕ

/-- A size as `size_t`. -/
def sz (x : ℕ) : ℕ := x % 2 ^ 64

/-- example/util.c:49 and 57, the write of one byte. -/
def Buf.put (b : Buf) (pos : ℕ) (c : Char) : C Buf :=
  match b.ptr with
  | none => .error .index
  | some d => if pos < d.length then .ok { b with ptr := some (d.set pos (some c)) } else .error .index

/-- example/util.c:59, `return pos`: `size_t` to `intmax_t`. -/
def toIntmax (pos : ℕ) : ℤ := if pos < 2 ^ 63 then pos else pos - 2 ^ 64

/-- example/util.c:35-47, the block is enlarged if there is no room for a byte and the final zero; `none` if
`realloc` fails. -/
def enlarge (A : Alloc) (b : Buf) (pos : ℕ) : Option Buf :=
  if sz (pos + 1) ≥ b.n then
    let size := sz (b.n + b.n >>> 2)
    let size := if size < A.bufsiz then A.bufsiz else size
    if A.ok size then some ⟨some (grow b.ptr size), size⟩ else none
  else some b

/-- example/util.c:34-59, the loop; the argument starts with the byte in `c` and is empty at the end of the
file. The result is the buffer, what is left of the file and the value returned. -/
def getlineLoop (A : Alloc) (b : Buf) (pos : ℕ) : List Char → C (Buf × List Char × ℤ)
  | [] => do
    let b ← b.put pos '\x00'
    return (b, [], toIntmax pos)
  | c :: cs =>
    match enlarge A b pos with
    | none => return (b, cs, -1)
    | some b => do
      let b ← b.put pos c
      if c = '\n' then
        let b ← b.put (sz (pos + 1)) '\x00'
        return (b, cs, toIntmax (sz (pos + 1)))
      else getlineLoop A b (sz (pos + 1)) cs

/-- example/util.c:11-60, `getline`. -/
def getline (A : Alloc) (b : Buf) (file : List Char) : C (Buf × List Char × ℤ) :=
  match file with
  | [] => return (b, [], -1)
  | c :: cs =>
    match b.ptr with
    | none => if A.ok A.bufsiz then getlineLoop A ⟨some (grow none A.bufsiz), A.bufsiz⟩ 0 (c :: cs) else return (b, cs, -1)
    | some _ => getlineLoop A b 0 (c :: cs)

end Takum.Calc
