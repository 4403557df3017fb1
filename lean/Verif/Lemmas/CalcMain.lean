import Verif.Lemmas.CalcStep
import Verif.Props.Getline

/-!
# A line of the calculator
-/

namespace Takum.Calc
open Spec Session

/-! ## Text -/

theorem cstr_line (l : List Char) (t : List (Option Char)) :
    cstr (l.map some ++ some '\x00' :: t) = .ok (l.takeWhile (· ≠ '\x00')) := by
  induction l with
  | nil => rfl
  | cons c l ih =>
    rw [List.map_cons, List.cons_append, cstr, ih, List.takeWhile_cons]
    by_cases h : c = '\x00'
    · rw [if_pos h]; simp [h]
    · rw [if_neg h]; simp [h]

theorem strtok_end (cur u : List Char) : strtok cur (u ++ ['\n']) = strtok cur u := by
  induction u generalizing cur with
  | nil => simp [strtok]
  | cons c u ih =>
    rw [List.cons_append, strtok, strtok]
    simp only [ih]

theorem strtok_split (acc u : List Char) (h : '\n' ∉ u) :
    strtok acc.reverse u = (List.splitOnPPrepend (· == ' ') u acc).filter (· ≠ []) := by
  induction u generalizing acc with
  | nil =>
    rw [strtok, List.splitOnPPrepend_nil]
    by_cases ha : acc.reverse = []
    · rw [if_pos ha, ha]; rfl
    · rw [if_neg ha, List.filter_cons_of_pos (by simpa using ha)]; rfl
  | cons c u ih =>
    have hn : c ≠ '\n' := by rintro rfl; simp at h
    have hu : '\n' ∉ u := fun hm => h (List.mem_cons_of_mem _ hm)
    rw [strtok, List.splitOnPPrepend_cons_eq_if]
    by_cases hc : c = ' '
    · subst hc
      rw [if_pos (Or.inl rfl), if_pos (c := (' ' == ' ') = true) (by decide)]
      have := ih [] hu
      rw [List.reverse_nil, List.splitOnPPrepend_nil_right] at this
      rw [this]
      by_cases ha : acc.reverse = []
      · rw [if_pos ha, ha, List.filter_cons_of_neg (by simp)]
      · rw [if_neg ha, List.filter_cons_of_pos (by simpa using ha)]
    · rw [if_neg (by rintro (h' | h'); exacts [hc h', hn h']), if_neg (by simpa using hc), ← ih _ hu, List.reverse_cons]

/-- The tokens are the words. -/
theorem strtok_words {l : List Char} (h : '\n' ∉ l) : strtok [] (l.takeWhile (· ≠ '\x00')) = words l := by
  have := strtok_split [] (l.takeWhile (· ≠ '\x00')) (fun hm => h (List.takeWhile_subset _ hm))
  rw [List.reverse_nil] at this
  rw [this]; rfl

theorem lines_line {l rest : List Char} (h : '\n' ∉ l) : Session.lines (l ++ '\n' :: rest) = l :: Session.lines rest := by
  induction l with
  | nil => simp [Session.lines]
  | cons c l ih =>
    have hn : c ≠ '\n' := by rintro rfl; simp at h
    rw [List.cons_append, Session.lines, if_neg hn, ih fun hm => h (List.mem_cons_of_mem _ hm)]

theorem lines_last {l : List Char} (h : '\n' ∉ l) (hne : l ≠ []) : Session.lines l = [l] := by
  induction l with
  | nil => exact absurd rfl hne
  | cons c l ih =>
    have hn : c ≠ '\n' := by rintro rfl; simp at h
    rw [Session.lines, if_neg hn]
    by_cases hl : l = []
    · subst hl; rfl
    · rw [ih (fun hm => h (List.mem_cons_of_mem _ hm)) hl]

/-- The tokens of the first line are its words. -/
theorem first_line {file l rest : List Char} (h : IsLine file l rest) :
    ∃ text, Session.lines file = text :: Session.lines rest ∧ strtok [] (l.takeWhile (· ≠ '\x00')) = words text := by
  obtain ⟨h1, h2, h3, h4⟩ := h
  by_cases hl : l.getLast? = some '\n'
  · refine ⟨l.dropLast, ?_, ?_⟩
    · rw [h1, ← List.dropLast_append_getLast? _ hl, List.append_assoc, List.singleton_append, List.dropLast_concat]
      exact lines_line h3
    · rw [← strtok_words h3]
      conv_lhs => rw [← List.dropLast_append_getLast? _ hl]
      rw [List.takeWhile_append]
      split
      · rename_i h
        have e : List.takeWhile (· ≠ '\x00') ['\n'] = ['\n'] := by decide
        have e2 : List.takeWhile (· ≠ '\x00') l.dropLast = l.dropLast :=
          (List.takeWhile_prefix _).eq_of_length h
        rw [e, strtok_end, e2]
      · rfl
  · have hr := h4.resolve_left hl
    subst hr
    rw [List.append_nil] at h1
    subst h1
    have hn : '\n' ∉ file := by
      intro hm
      obtain ⟨x, hx⟩ := Option.isSome_iff_exists.mp (by simpa using h2 : file.getLast?.isSome)
      rw [← List.dropLast_append_getLast? _ hx, List.mem_append] at hm
      rcases hm with hm | hm
      · exact h3 hm
      · exact hl (hx.trans (congrArg some (List.mem_singleton.mp hm).symm))
    exact ⟨file, lines_last hn h2, strtok_words hn⟩

theorem words_ne {text : List Char} : ∀ tok ∈ words text, tok ≠ [] := fun tok h => by
  simpa using (List.mem_filter.mp h).2

/-! ## Lines -/

/-- The state of `main`. -/
structure MRep (L : Libm) (m : Main) (s : State) : Prop where
  kind : m.cal.kind = s.kind
  width : m.cal.width = s.width
  regs : RegRep L m.results s
  offset : m.offset = s.count % 26

theorem finish_line {L : Libm} {m : Main} {s : State} (h : MRep L m s) {st : List Val} (hs : SRep L m.cal.stack st) (lc : Libc) :
    Sim (fun a b => MRep L a.1 b.1 ∧ (∃ l, Rep a.1.cal.stack l) ∧ a.2 = b.2) (m.finish L) (execAll L lc s [] st) := by
  obtain ⟨ns, r, f⟩ := hs
  unfold Main.finish
  rw [r.size]
  match st, f with
  | [], .nil => exact ⟨h, ⟨_, r⟩, rfl⟩
  | _ :: _ :: _, .cons _ (.cons _ _) =>
    rw [if_pos (by simp)]
    exact ⟨h, ⟨_, r⟩, rfl⟩
  | [x], .cons (a := n) hn .nil =>
    rw [if_neg (by simp)]
    obtain ⟨s', e, r'⟩ := r.pop_cons
    rw [e]
    simp only [ok_bind]
    rw [print_rep hn, execAll]
    refine (Sim.refl _).bind ?_
    rintro p _ rfl
    rw [if_pos (by rw [h.offset, h.regs.length]; exact Nat.mod_lt _ (by norm_num))]
    refine ⟨⟨h.kind, h.width, ⟨by rw [List.length_set]; exact h.regs.length, ?_⟩, ?_⟩, ⟨_, r'⟩, by rw [h.offset]⟩
    · intro i n' hi
      simp only at hi ⊢
      rw [List.getElem?_set] at hi
      by_cases hc : m.offset = i
      · subst hc
        rw [if_pos rfl] at hi
        split at hi
        · cases hi
          rw [h.offset, Function.update_self]; exact hn
        · cases hi
      · rw [if_neg hc] at hi
        rw [Function.update_of_ne (by rw [← h.offset]; exact fun h => hc h.symm)]
        exact h.regs.get i n' hi
    · simp only
      rw [h.regs.length, h.offset]; omega

theorem tokens_rep {L : Libm} {lc : Libc} (hlc : lc.Sound) (toks : List (List Char)) (hne : ∀ tok ∈ toks, tok ≠ []) (h0 : toks ≠ [])
    {m : Main} {s : State} (h : MRep L m s) {st : List Val} (hs : SRep L m.cal.stack st) :
    Sim (fun a b => MRep L a.1 b.1 ∧ (∃ l, Rep a.1.cal.stack l) ∧ a.2 = b.2) (m.tokens L lc toks) (execAll L lc s toks st) := by
  induction toks generalizing m st with
  | nil => exact absurd rfl h0
  | cons tok toks ih =>
    rw [Main.tokens, execAll]
    refine (processToken_rep hlc h.kind h.width hs h.regs (hne tok List.mem_cons_self)).bind ?_
    rintro ⟨cal, out, stop⟩ (st' | ⟨k, w, o⟩) hr
    · obtain ⟨rfl, rfl, h3, h4, h5⟩ := hr
      have hm : MRep L { m with cal := cal } s := ⟨h3, h4, h.regs, h.offset⟩
      cases toks with
      | nil =>
        have := finish_line hm h5 lc
        simpa using this
      | cons t ts =>
        have := ih (fun x hx => hne x (List.mem_cons_of_mem _ hx)) (by simp) hm h5
        simpa using this
    · obtain ⟨rfl, rfl, h3, h4, h5⟩ := hr
      exact ⟨⟨h3, h4, ⟨h.regs.length, h.regs.get⟩, h.offset⟩, h5, rfl⟩

theorem line_rep' {L : Libm} {lc : Libc} (hlc : lc.Sound) {text text' : List Char} (ht : strtok [] text = words text')
    {m : Main} {s : State} (h : MRep L m s) (hs : ∃ l, Rep m.cal.stack l) :
    Sim (fun a b => MRep L a.1 b.1 ∧ (∃ l, Rep a.1.cal.stack l) ∧ a.2 = b.2 ++ [.prompt]) (m.line L lc text) (Session.line L lc s text') := by
  obtain ⟨l, r⟩ := hs
  unfold Main.line Session.line
  rw [ht]
  have hm : MRep L { m with cal := { m.cal with stack := m.cal.stack.clear } } s := ⟨h.kind, h.width, h.regs, h.offset⟩
  by_cases hw : words text' = []
  · rw [if_pos hw, hw]
    exact ⟨hm, ⟨_, r.clear⟩, rfl⟩
  · rw [if_neg hw]
    have := tokens_rep hlc (words text') words_ne hw hm ⟨[], r.clear, .nil⟩
    have := this.bind (S := fun (a : Main × List Item) (b : State × List Item) => MRep L a.1 b.1 ∧ (∃ l, Rep a.1.cal.stack l) ∧ a.2 = b.2 ++ [.prompt])
      (f := fun p => .ok (p.1, p.2 ++ [.prompt])) (g := fun p => .ok p) (fun a b hab => ⟨hab.1, hab.2.1, by rw [hab.2.2]⟩)
    rwa [show (execAll L lc s (words text') [] >>= fun p => Except.ok p) = execAll L lc s (words text') [] from bind_pure _] at this

theorem loop_rep' {L : Libm} {lc : Libc} {A : Alloc} (hlc : lc.Sound) (hA : A.Sound) (n : ℕ) (file : List Char) (hn : file.length < n)
    (hok : ∀ s ≤ max A.bufsiz (2 * file.length), A.ok s = true)
    {m : Main} {s : State} (h : MRep L m s) (hs : ∃ l, Rep m.cal.stack l) (b : Buf) (hb : b.Valid) :
    Main.loop L lc A n m b file = Session.run L lc s (Session.lines file) := by
  induction n generalizing file m s b with
  | zero => omega
  | succ n ih =>
    obtain ⟨b', rest, r, e, hb', h1⟩ := getline_reads A hA b hb file
    rw [Main.loop, e]
    simp only [ok_bind]
    rcases h1 with ⟨rfl, h2⟩ | ⟨l, hl, rfl, t, ht⟩
    · rcases h2 with rfl | ⟨z, hz, hf⟩
      · rfl
      · rw [hok z hz] at hf; cases hf
    · rw [if_neg (by omega), ht]
      simp only [Option.getD_some]
      rw [cstr_line]
      simp only [ok_bind]
      obtain ⟨text, h3, h4⟩ := first_line hl
      have hlen : file.length = l.length + rest.length := by rw [hl.append, List.length_append]
      have hpos : 0 < l.length := List.length_pos_iff.mpr hl.nonempty
      rw [h3, Session.run]
      apply Sim.eq
      refine (line_rep' hlc h4 h hs).bind ?_
      rintro ⟨m', o⟩ ⟨s', o'⟩ ⟨hm, hs', rfl : o = _⟩
      simp only
      rw [ih rest (by omega) (fun z hz => hok z (by omega)) hm hs' b' hb']
      refine (Sim.refl _).bind ?_
      rintro x _ rfl
      show _ = _
      simp

end Takum.Calc
