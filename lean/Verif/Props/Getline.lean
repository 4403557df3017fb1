import Verif.Model.Getline

/-!
# `getline` reads the first line (C72)
-/

namespace Takum.Calc

/-! ## Specification -/

/-- `l` is the first line of the file, with its newline if it has one, and `rest` is what follows. -/
structure IsLine (file l rest : List Char) : Prop where
  append : file = l ++ rest
  nonempty : l ≠ []
  inner : '\n' ∉ l.dropLast
  last : l.getLast? = some '\n' ∨ rest = []

/-- What the C standard guarantees: `BUFSIZ` is at least 256, and no object is larger than `PTRDIFF_MAX`. -/
structure Alloc.Sound (A : Alloc) : Prop where
  min : 256 ≤ A.bufsiz
  max : ∀ s, A.ok s = true → s < 2 ^ 63

/-- The buffer is the null pointer or a block of `*n` bytes. -/
def Buf.Valid (b : Buf) : Prop := ∀ d, b.ptr = some d → d.length = b.n ∧ b.n < 2 ^ 63

/-! ## Proof -/

theorem Buf.put_ok {d : List (Option Char)} {n pos : ℕ} (c : Char) (pre : List Char) (tail : List (Option Char)) (x : Option Char)
    (h : d = pre.map some ++ x :: tail) (hp : pos = pre.length) :
    Buf.put ⟨some d, n⟩ pos c = .ok ⟨some ((pre ++ [c]).map some ++ tail), n⟩ := by
  subst h hp
  unfold Buf.put
  simp only
  rw [if_pos (by simp)]
  simp [List.set_append]

theorem sz_of_lt {x : ℕ} (h : x < 2 ^ 64) : sz x = x := Nat.mod_eq_of_lt h

theorem exists_tail {d : List (Option Char)} {pre : List Char} {tail : List (Option Char)} (h : d = pre.map some ++ tail)
    (hl : pre.length < d.length) : ∃ x t, tail = x :: t := by
  cases tail with
  | nil => simp [h] at hl
  | cons x t => exact ⟨x, t, rfl⟩

theorem grow_prefix {d : List (Option Char)} {pre : List Char} {tail : List (Option Char)} (h : d = pre.map some ++ tail)
    {n : ℕ} (hn : d.length ≤ n) : grow (some d) n = pre.map some ++ (tail ++ List.replicate (n - d.length) none) := by
  unfold grow
  rw [Option.getD_some, List.take_of_length_le hn, h]
  simp

theorem grow_length (d : Option (List (Option Char))) (n : ℕ) : (grow d n).length = n := by
  unfold grow; simp; omega

/-- The block after the room check. -/
theorem enlarge_spec {A : Alloc} (hA : A.Sound) {d : List (Option Char)} {n : ℕ} (hl : d.length = n) (hn : n < 2 ^ 63)
    {pre : List Char} {tail : List (Option Char)} (hd : d = pre.map some ++ tail) (hp : pre.length = 0 ∨ pre.length + 1 ≤ n) :
    (enlarge A ⟨some d, n⟩ pre.length = none ∧ ∃ s, s ≤ max A.bufsiz (2 * (pre.length + 1)) ∧ A.ok s = false) ∨
    ∃ d' n' t', enlarge A ⟨some d, n⟩ pre.length = some ⟨some d', n'⟩ ∧ d'.length = n' ∧ n' < 2 ^ 63 ∧ d' = pre.map some ++ t' ∧
      pre.length + 1 < n' := by
  have hmin := hA.min
  unfold enlarge
  simp only
  rw [sz_of_lt (x := pre.length + 1) (by omega)]
  by_cases h : pre.length + 1 ≥ n
  · rw [if_pos h]
    have hs : n >>> 2 = n / 4 := by rw [Nat.shiftRight_eq_div_pow]
    rw [hs, sz_of_lt (by omega)]
    generalize hS : (if n + n / 4 < A.bufsiz then A.bufsiz else n + n / 4) = S
    have h1 : pre.length + 1 < S ∧ S ≤ max A.bufsiz (2 * (pre.length + 1)) ∧ n ≤ S := by
      rw [← hS]; split <;> omega
    by_cases ho : A.ok S = true
    · right
      rw [if_pos ho]
      exact ⟨_, _, _, rfl, grow_length _ _, hA.max S ho, grow_prefix hd (by omega), h1.1⟩
    · left
      rw [if_neg ho]
      exact ⟨rfl, S, h1.2.1, by simpa using ho⟩
  · right
    rw [if_neg h]
    exact ⟨d, n, tail, rfl, hl, hn, hd, by omega⟩

theorem loop_spec {A : Alloc} (hA : A.Sound) (cs : List Char) {d : List (Option Char)} {n : ℕ} (hl : d.length = n) (hn : n < 2 ^ 63)
    {pre : List Char} {tail : List (Option Char)} (hd : d = pre.map some ++ tail)
    (hp : cs ≠ [] ∧ pre.length = 0 ∨ pre.length + 1 ≤ n) (hnl : '\n' ∉ pre) (hne : pre ++ cs ≠ []) :
    ∃ b' rest r, getlineLoop A ⟨some d, n⟩ pre.length cs = .ok (b', rest, r) ∧ b'.Valid ∧
      ((r = -1 ∧ ∃ s, s ≤ max A.bufsiz (2 * (pre ++ cs).length) ∧ A.ok s = false) ∨
        ∃ l, IsLine (pre ++ cs) l rest ∧ r = l.length ∧ ∃ t, b'.ptr = some (l.map some ++ some '\x00' :: t)) := by
  induction cs generalizing d n pre tail with
  | nil =>
    have hp : pre.length + 1 ≤ n := by rcases hp with h | h; exacts [absurd rfl h.1, h]
    obtain ⟨x, t, rfl⟩ := exists_tail hd (by omega)
    rw [getlineLoop, Buf.put_ok '\x00' pre t x hd rfl]
    refine ⟨_, _, _, rfl, ?_, Or.inr ⟨pre, ⟨rfl, by simpa using hne, fun h => hnl (List.mem_of_mem_dropLast h), Or.inr rfl⟩, ?_, t, ?_⟩⟩
    · rintro d' ⟨⟩
      refine ⟨?_, hn⟩
      rw [← hl, hd]; simp
    · exact if_pos (by omega)
    · simp
  | cons c cs ih =>
    have hp' : pre.length = 0 ∨ pre.length + 1 ≤ n := hp.imp And.right id
    rcases enlarge_spec hA hl hn hd hp' with ⟨e, s, h1, h2⟩ | ⟨d', n', t', e, hl', hn', hd', hp2⟩
    · rw [getlineLoop, e]
      refine ⟨_, _, _, rfl, ?_, Or.inl ⟨rfl, s, h1.trans ?_, h2⟩⟩
      · rintro d'' ⟨⟩; exact ⟨hl, hn⟩
      · simp; omega
    · obtain ⟨x, t, rfl⟩ := exists_tail hd' (by omega)
      rw [getlineLoop, e]
      simp only
      rw [Buf.put_ok c pre t x hd' rfl, sz_of_lt (by omega)]
      have hlen : ((pre ++ [c]).map some ++ t).length = n' := by rw [← hl', hd']; simp
      have hpl : pre.length + 1 = (pre ++ [c]).length := by simp
      by_cases hc : c = '\n'
      · subst hc
        obtain ⟨y, u, rfl⟩ := exists_tail (pre := pre ++ ['\n']) (tail := t) rfl (by rw [hlen]; simpa using hp2)
        simp only [bind, Except.bind, if_pos]
        rw [Buf.put_ok '\x00' (pre ++ ['\n']) u y rfl hpl]
        refine ⟨_, _, _, rfl, ?_, Or.inr ⟨pre ++ ['\n'], ⟨by simp, by simp, by simpa using hnl, Or.inl (by simp)⟩, ?_, u, ?_⟩⟩
        · rintro d'' ⟨⟩
          refine ⟨?_, hn'⟩
          rw [← hlen]; simp
        · rw [toIntmax, if_pos (by omega)]; simp
        · simp
      · simp only [bind, Except.bind, if_neg hc, hpl]
        have := ih (pre := pre ++ [c]) (tail := t) hlen hn' rfl (Or.inr (by simp; omega)) (by simp [hnl]; exact fun h => hc h.symm) (by simp)
        simpa using this

/-! ## C72 -/

/-- Whatever the allocations do, `getline` never accesses memory outside its block and keeps the buffer valid. Unless
it returns -1, the block holds exactly the first line of the file, terminated by a zero, the value returned is its
length, and the file continues after it. It returns -1 only at the end of the file or because an allocation failed
whose size is at most the larger of `BUFSIZ` and twice the length of the file. -/
theorem getline_reads (A : Alloc) (hA : A.Sound) (b : Buf) (hb : b.Valid) (file : List Char) :
    ∃ b' rest r, getline A b file = .ok (b', rest, r) ∧ b'.Valid ∧
      ((r = -1 ∧ (file = [] ∨ ∃ s, s ≤ max A.bufsiz (2 * file.length) ∧ A.ok s = false)) ∨
        ∃ l, IsLine file l rest ∧ r = l.length ∧ ∃ t, b'.ptr = some (l.map some ++ some '\x00' :: t)) := by
  have hmin := hA.min
  cases file with
  | nil => exact ⟨b, [], -1, rfl, hb, Or.inl ⟨rfl, Or.inl rfl⟩⟩
  | cons c cs =>
    obtain ⟨p, n⟩ := b
    cases p with
    | none =>
      unfold getline
      simp only
      by_cases ho : A.ok A.bufsiz = true
      · rw [if_pos ho]
        obtain ⟨b', rest, r, e, v, h⟩ := loop_spec hA (c :: cs) (d := grow none A.bufsiz) (pre := []) (grow_length _ _) (hA.max _ ho)
          rfl (Or.inl ⟨by simp, rfl⟩) (by simp) (by simp)
        exact ⟨b', rest, r, e, v, h.imp (fun h => ⟨h.1, Or.inr h.2⟩) id⟩
      · rw [if_neg ho]
        exact ⟨_, _, _, rfl, hb, Or.inl ⟨rfl, Or.inr ⟨A.bufsiz, by omega, by simpa using ho⟩⟩⟩
    | some d =>
      obtain ⟨h1, h2⟩ := hb d rfl
      obtain ⟨b', rest, r, e, v, h⟩ := loop_spec hA (c :: cs) (pre := []) h1 h2 rfl (Or.inl ⟨by simp, rfl⟩) (by simp) (by simp)
      exact ⟨b', rest, r, e, v, h.imp (fun h => ⟨h.1, Or.inr h.2⟩) id⟩

/-- A 300-byte line that does not fit a block of 256 bytes, followed by a second line. -/
example : (⟨256, fun s => decide (s < 2 ^ 63)⟩ : Alloc).Sound ∧ (⟨none, 0⟩ : Buf).Valid ∧
    (getline ⟨256, fun s => decide (s < 2 ^ 63)⟩ ⟨none, 0⟩ (List.replicate 299 'x' ++ ['\n', 'y'])).map (fun r => (r.1.n, r.2)) =
      .ok (320, ['y'], 300) ∧
    IsLine (List.replicate 299 'x' ++ ['\n', 'y']) (List.replicate 299 'x' ++ ['\n']) ['y'] := by
  refine ⟨⟨by decide, by simp⟩, by rintro d ⟨⟩, by decide +kernel, ⟨by decide +kernel, by decide +kernel, by decide +kernel, by decide +kernel⟩⟩

/-- A line is lost when an allocation fails: the first byte has been read and is not returned. -/
example : (getline ⟨256, fun _ => false⟩ ⟨none, 0⟩ ['1', '\n']).map (fun r => r.2) = .ok (['\n'], -1) := by decide +kernel

end Takum.Calc
