import Verif.Props.Ordered
import Verif.Props.InversionLaws
import Verif.Props.Scale
import Verif.Model.Constants

/-!
# C145: repeated square roots; C146: repeated doubling and halving
-/

namespace Takum
open Spec

/-- An operation applied `k` times. -/
def iterC {w : W} (f : T w → C (T w)) : ℕ → T w → C (T w)
  | 0, a => .ok a
  | k + 1, a => do iterC f k (← f a)

theorem iterC_succ {w : W} {f : T w → C (T w)} {a b : T w} (h : f a = .ok b) (k : ℕ) : iterC f (k + 1) a = iterC f k b := by
  rw [iterC, h]; rfl

/-- A monotone operation on a set of takums, applied `k` times, is monotone. -/
theorem iterC_mono {w : W} {f : T w → C (T w)} (hf : ∀ a b : T w, 0 ≤ a.toInt → a.toInt ≤ b.toInt →
      ∃ u v : T w, f a = .ok u ∧ f b = .ok v ∧ 0 ≤ u.toInt ∧ u.toInt ≤ v.toInt) :
    ∀ (k : ℕ) (a b : T w), 0 ≤ a.toInt → a.toInt ≤ b.toInt → ∃ u v : T w, iterC f k a = .ok u ∧ iterC f k b = .ok v ∧ u.toInt ≤ v.toInt
  | 0, a, b, _, h => ⟨a, b, rfl, rfl, h⟩
  | k + 1, a, b, h0, h => by
    obtain ⟨u, v, e1, e2, p, o⟩ := hf a b h0 h
    rw [iterC_succ e1, iterC_succ e2]
    exact iterC_mono hf k u v p o

/-- A list of the results of an operation, until it returns its argument. -/
def settles {w : W} (f : T w → C (T w)) (t : T w) : T w → List ℕ → Bool
  | a, [] => decide (a = t) && decide (f a = .ok a)
  | a, b :: l => decide (f a = .ok (BitVec.ofNat w.n b)) && settles f t (BitVec.ofNat w.n b) l

theorem iterC_fix {w : W} {f : T w → C (T w)} {a : T w} (h : f a = .ok a) : ∀ k, iterC f k a = .ok a
  | 0 => rfl
  | k + 1 => by rw [iterC_succ h, iterC_fix h k]

theorem settles_iterC {w : W} {f : T w → C (T w)} {t : T w} : ∀ (l : List ℕ) (a : T w), settles f t a l = true → ∀ k, l.length ≤ k → iterC f k a = .ok t
  | [], a, h, k, _ => by
    simp only [settles, Bool.and_eq_true, decide_eq_true_eq] at h
    obtain ⟨rfl, h⟩ := h
    exact iterC_fix h k
  | b :: l, a, h, k, hk => by
    simp only [settles, Bool.and_eq_true, decide_eq_true_eq] at h
    obtain ⟨k, rfl⟩ : ∃ j, k = j + 1 := ⟨k - 1, by rw [List.length_cons] at hk; omega⟩
    rw [iterC_succ h.1]
    exact settles_iterC l _ h.2 k (by rw [List.length_cons] at hk; omega)

/-- Between two takums that end at `t` after `k` steps every takum does. -/
theorem iterC_between {w : W} {f : T w → C (T w)} (hf : ∀ a b : T w, 0 ≤ a.toInt → a.toInt ≤ b.toInt →
      ∃ u v : T w, f a = .ok u ∧ f b = .ok v ∧ 0 ≤ u.toInt ∧ u.toInt ≤ v.toInt) {k : ℕ} {l h a t : T w} (hl : 0 ≤ l.toInt)
    (h1 : l.toInt ≤ a.toInt) (h2 : a.toInt ≤ h.toInt) (e1 : iterC f k l = .ok t) (e2 : iterC f k h = .ok t) : iterC f k a = .ok t := by
  obtain ⟨u, v, i1, i2, o1⟩ := iterC_mono hf k l a hl h1
  obtain ⟨v', u', i3, i4, o2⟩ := iterC_mono hf k a h (hl.trans h1) h2
  rw [e1] at i1
  rw [e2] at i4
  rw [i2] at i3
  cases i1
  cases i3
  cases i4
  rw [i2, BitVec.toInt_inj.mp (le_antisymm o2 o1)]

/-! ## C145: repeated square roots -/

/-- The repeated square roots of the smallest positive linear takum. -/
def linLow : W → List ℕ
  | .w8 => [9, 17, 25, 32, 39, 46, 52, 56, 59, 61, 62, 63]
  | .w16 => [2039, 4070, 6086, 8070, 9990, 11782, 13318, 14342, 15189, 15735, 16046, 16211, 16297, 16340, 16362, 16373, 16378, 16381, 16382, 16383]
  | .w32 => [133603487, 266735101, 398838498, 528853700, 654678798, 772117321, 872779628, 939887999, 995376043, 1031185628, 1051546093, 1062404545,
      1068012033, 1070861475, 1072297765, 1073018821, 1073380079, 1073560891, 1073651342, 1073696579, 1073719201, 1073730512, 1073736168,
      1073738996, 1073740410, 1073741117, 1073741470, 1073741647, 1073741735, 1073741779, 1073741801, 1073741812, 1073741818, 1073741821,
      1073741822, 1073741823, 1073741824]
  | .w64 => [573822604721208269, 1145618531537350187, 1712998300765210092, 2271409343315069052, 2811824023327496005, 3316218637252037663,
      3748559952412462429, 4036788209779105645, 4275107547871153188, 4428908543896977774, 4516356077157293239, 4562992776663743097,
      4587076753507140066, 4599315014695357622, 4605483834120276089, 4608580744407721126, 4610132334540724639, 4610908914588352952,
      4611297401011869598, 4611491693342868355, 4611588851790592956, 4611637434085313499, 4611661726000426076, 4611673872149925160,
      4611679945272660990, 4611682981846025551, 4611684500135707002, 4611685259281297522, 4611685638854280230, 4611685828640818446,
      4611685923534099270, 4611685970980742611, 4611685994704065013, 4611686006565726398, 4611686012496557136, 4611686015461972516,
      4611686016944680209, 4611686017686034056, 4611686018056710980, 4611686018242049442, 4611686018334718673, 4611686018381053288,
      4611686018404220596, 4611686018415804250, 4611686018421596077, 4611686018424491990, 4611686018425939947, 4611686018426663926,
      4611686018427025915, 4611686018427206910, 4611686018427297407, 4611686018427342656, 4611686018427365280, 4611686018427376592,
      4611686018427382248, 4611686018427385076, 4611686018427386490, 4611686018427387197, 4611686018427387550, 4611686018427387727,
      4611686018427387816, 4611686018427387860, 4611686018427387882, 4611686018427387893, 4611686018427387898, 4611686018427387901,
      4611686018427387902, 4611686018427387903, 4611686018427387904]

/-- The repeated square roots of the largest linear takum. -/
def linHigh : W → List ℕ
  | .w8 => [119, 111, 103, 95, 88, 81, 75, 71, 67, 65, 64]
  | .w16 => [30726, 28693, 26676, 24692, 22772, 20980, 19444, 18420, 17228, 16770, 16569, 16475, 16429, 16406, 16395, 16389, 16386, 16385, 16384]
  | .w32 => [2013700254, 1880478015, 1748328547, 1618290045, 1492453222, 1375008816, 1274343563, 1207233718, 1129079832, 1099028767, 1085840037,
      1079660434, 1076669205, 1075197619, 1074467758, 1074104302, 1073922941, 1073832352, 1073787080, 1073764450, 1073753137, 1073747480,
      1073744652, 1073743238, 1073742531, 1073742177, 1073742000, 1073741912, 1073741868, 1073741846, 1073741835, 1073741829, 1073741826,
      1073741825, 1073741824]
  | .w64 => [8648776736596507596, 8076591576122763098, 7509013933973213724, 6950502819072083660, 6410037778073277446, 5905617897301089029,
      5473263926481026114, 5185029335644499082, 4849360954395486668, 4720292614154847572, 4663647448119789694, 4637106254191765367,
      4624259023372810377, 4617938611462632519, 4614803883251247007, 4613242848597171859, 4612463908660230601, 4612074832419253360,
      4611880392653232190, 4611783197349168846, 4611734605840665663, 4611710311622145177, 4611698164896798835, 4611692091630101780,
      4611689055020746987, 4611687536722067987, 4611686777574228082, 4611686398000683027, 4611686208214004224, 4611686113320688254,
      4611686065874036126, 4611686042150711527, 4611686030289049593, 4611686024358218718, 4611686021392803303, 4611686019910095602,
      4611686019168741752, 4611686018798064828, 4611686018612726366, 4611686018520057135, 4611686018473722520, 4611686018450555212,
      4611686018438971558, 4611686018433179731, 4611686018430283818, 4611686018428835861, 4611686018428111882, 4611686018427749893,
      4611686018427568898, 4611686018427478401, 4611686018427433152, 4611686018427410528, 4611686018427399216, 4611686018427393560,
      4611686018427390732, 4611686018427389318, 4611686018427388611, 4611686018427388258, 4611686018427388081, 4611686018427387992,
      4611686018427387948, 4611686018427387926, 4611686018427387915, 4611686018427387910, 4611686018427387907, 4611686018427387906,
      4611686018427387905, 4611686018427387904]

/-- The repeated square roots of the largest logarithmic takum. -/
def logHigh : W → List ℕ
  | .w8 => [119, 111, 103, 96, 88, 81, 75, 71, 68, 66, 65, 64]
  | .w16 => [30728, 28696, 26680, 24696, 22776, 20984, 19448, 18424, 17404, 16894, 16639, 16512, 16448, 16416, 16400, 16392, 16388, 16386, 16385, 16384]
  | .w32 => [2013790208, 1880621056, 1748500480, 1618477056, 1492647936, 1375207424, 1274544128, 1207435264, 1140588544, 1107165184, 1090453504,
      1082097664, 1077919744, 1075830784, 1074786304, 1074264064, 1074002944, 1073872384, 1073807104, 1073774464, 1073758144, 1073749984,
      1073745904, 1073743864, 1073742844, 1073742334, 1073742079, 1073741952, 1073741888, 1073741856, 1073741840, 1073741832, 1073741828,
      1073741826, 1073741825, 1073741824]
  | .w64 => [8649163084365037568, 8077205931688984576, 7509752378640302080, 6951306024846360576, 6410874069561901056, 5906470911296405504,
      5474125347068837888, 5185894970917126144, 4898790494672257024, 4755238256549822464, 4683462137488605184, 4647574077957996544,
      4629630048192692224, 4620658033310040064, 4616172025868713984, 4613929022148050944, 4612807520287719424, 4612246769357553664,
      4611966393892470784, 4611826206159929344, 4611756112293658624, 4611721065360523264, 4611703541893955584, 4611694780160671744,
      4611690399294029824, 4611688208860708864, 4611687113644048384, 4611686566035718144, 4611686292231553024, 4611686155329470464,
      4611686086878429184, 4611686052652908544, 4611686035540148224, 4611686026983768064, 4611686022705577984, 4611686020566482944,
      4611686019496935424, 4611686018962161664, 4611686018694774784, 4611686018561081344, 4611686018494234624, 4611686018460811264,
      4611686018444099584, 4611686018435743744, 4611686018431565824, 4611686018429476864, 4611686018428432384, 4611686018427910144,
      4611686018427649024, 4611686018427518464, 4611686018427453184, 4611686018427420544, 4611686018427404224, 4611686018427396064,
      4611686018427391984, 4611686018427389944, 4611686018427388924, 4611686018427388414, 4611686018427388159, 4611686018427388032,
      4611686018427387968, 4611686018427387936, 4611686018427387920, 4611686018427387912, 4611686018427387908, 4611686018427387906,
      4611686018427387905, 4611686018427387904]

/-- Where the square roots of numbers below 1 end. -/
def lowEnd : (w : W) → T w
  | .w8 => 0x3f#8
  | .w16 => 0x3fff#16
  | .w32 => ONE .w32
  | .w64 => ONE .w64

theorem linLow_settles (w : W) : settles (linSquareRoot w) (lowEnd w) 1#w.n (linLow w) = true := by cases w <;> decide +kernel
theorem linHigh_settles (w : W) : settles (linSquareRoot w) (ONE w) (POSITIVE_MAXIMUM w) (linHigh w) = true := by cases w <;> decide +kernel
theorem logHigh_settles (w : W) : settles (squareRoot w) (ONE w) (POSITIVE_MAXIMUM w) (logHigh w) = true := by cases w <;> decide +kernel
theorem settles_length (w : W) : (linLow w).length ≤ w.n + 5 ∧ (linHigh w).length ≤ w.n + 5 ∧ (logHigh w).length ≤ w.n + 5 := by cases w <;> decide

theorem ends_toInt (w : W) : (POSITIVE_MAXIMUM w).toInt = 2 ^ (w.n - 1) - 1 ∧ (1#w.n : T w).toInt = 1 ∧ (0#w.n : T w).toInt = 0 ∧
    (ONE w).toInt = 2 ^ (w.n - 2) ∧ linSquareRoot w 0#w.n = .ok 0#w.n ∧ squareRoot w 0#w.n = .ok 0#w.n ∧ linSquareRoot w (ONE w) = .ok (ONE w) ∧
    (lowEnd w = ONE w ∨ (w = .w8 ∨ w = .w16) ∧ lowEnd w = ONE w - 1) ∧ (ONE w - 1).toInt = 2 ^ (w.n - 2) - 1 ∧
    ((w = .w8 ∨ w = .w16) → linSquareRoot w (ONE w - 1) = .ok (ONE w - 1)) := by
  cases w <;> decide +kernel

theorem lin_root_step (w : W) (a b : T w) (h0 : 0 ≤ a.toInt) (h : a.toInt ≤ b.toInt) :
    ∃ u v : T w, linSquareRoot w a = .ok u ∧ linSquareRoot w b = .ok v ∧ 0 ≤ u.toInt ∧ u.toInt ≤ v.toInt := by
  obtain ⟨u, v, e1, e2, o⟩ := lin_squareRoot_monotone w a b h0 h
  obtain ⟨z, u', e3, e4, o'⟩ := lin_squareRoot_monotone w 0#w.n a (ends_toInt w).2.2.1.ge ((ends_toInt w).2.2.1 ▸ h0)
  rw [(ends_toInt w).2.2.2.2.1] at e3
  rw [e1] at e4
  cases e3
  cases e4
  rw [(ends_toInt w).2.2.1] at o'
  exact ⟨u, v, e1, e2, o', o⟩

theorem log_root_step (w : W) (a b : T w) (h0 : 0 ≤ a.toInt) (h : a.toInt ≤ b.toInt) :
    ∃ u v : T w, squareRoot w a = .ok u ∧ squareRoot w b = .ok v ∧ 0 ≤ u.toInt ∧ u.toInt ≤ v.toInt := by
  obtain ⟨u, v, e1, e2, o⟩ := squareRoot_monotone w a b h0 h
  obtain ⟨z, u', e3, e4, o'⟩ := squareRoot_monotone w 0#w.n a (ends_toInt w).2.2.1.ge ((ends_toInt w).2.2.1 ▸ h0)
  rw [(ends_toInt w).2.2.2.2.2.1] at e3
  rw [e1] at e4
  cases e3
  cases e4
  rw [(ends_toInt w).2.2.1] at o'
  exact ⟨u, v, e1, e2, o', o⟩

theorem le_maximum {w : W} (a : T w) : a.toInt ≤ (POSITIVE_MAXIMUM w).toInt := by
  have h8 := w.n_pos
  rw [(ends_toInt w).1, toInt_mkT (by omega)]
  have := low_lt a
  have : (low a : ℤ) < 2 ^ (w.n - 1) := by exact_mod_cast this
  split <;> omega

theorem squareRoot_pos (w : W) (a v : T w) (h : 0 < a.toInt) (e : squareRoot w a = .ok v) : 0 < v.toInt ∧ Regular v := by
  obtain ⟨u, _, e1, -, h0, -⟩ := log_root_step w a a h.le le_rfl
  rw [e] at e1
  cases e1
  obtain ⟨s1, s2⟩ := squareRoot_special w a
  rw [e, Except.ok.injEq] at s1 s2
  have hz : v ≠ 0#w.n := fun hv => by
    rw [s2.mp hv, BitVec.toInt_zero] at h
    omega
  refine ⟨lt_of_le_of_ne h0 fun hv => hz ?_, hz, fun hv => by have := s1.mp hv; omega⟩
  exact BitVec.toInt_inj.mp (hv.symm.trans (ends_toInt w).2.2.1.symm)

theorem iterC_inversion {w : W} : ∀ (k : ℕ) (a v : T w), 0 < a.toInt → Regular a → iterC (squareRoot w) k a = .ok v →
    iterC (squareRoot w) k (inversion w a) = .ok (inversion w v)
  | 0, a, v, _, _, h => by
    cases h
    rfl
  | k + 1, a, v, h0, ha, h => by
    obtain ⟨u, e1, e2⟩ := (inversion_laws w a a ha ha).2.2 h0
    rw [iterC_succ e1] at h
    rw [iterC_succ e2]
    have := squareRoot_pos w a u h0 e1
    exact iterC_inversion k u v this.1 this.2 h

/-- C145, logarithmic takums: from every positive number repeated square roots reach exactly 1, after at most `n + 5` steps. -/
theorem log_roots_reach_one (w : W) (a : T w) (ha : 0 < a.toInt) (k : ℕ) (hk : w.n + 5 ≤ k) : iterC (squareRoot w) k a = .ok (ONE w) := by
  have h8 := w.n_pos
  have hi := settles_iterC _ _ (logHigh_settles w) k ((settles_length w).2.2.trans hk)
  have hm : 0 < (POSITIVE_MAXIMUM w).toInt ∧ Regular (POSITIVE_MAXIMUM w) ∧ inversion w (POSITIVE_MAXIMUM w) = 1#w.n ∧ inversion w (ONE w) = ONE w := by
    rw [Regular]
    cases w <;> decide +kernel
  have lo := iterC_inversion k _ _ hm.1 hm.2.1 hi
  rw [hm.2.2.1, hm.2.2.2] at lo
  exact iterC_between (log_root_step w) (by rw [(ends_toInt w).2.1]; norm_num) (by rw [(ends_toInt w).2.1]; omega) (le_maximum a) lo hi

/-- C145, linear takums: so they do from every number that is at least 1, and with 32 and 64 bits from every positive number. -/
theorem lin_roots_reach_one_partial (w : W) (a : T w) (ha : 0 < a.toInt) (h : w = .w32 ∨ w = .w64 ∨ ∀ x, linVal a = some x → 1 ≤ x) (k : ℕ) (hk : w.n + 5 ≤ k) :
    iterC (linSquareRoot w) k a = .ok (ONE w) := by
  have h8 := w.n_pos
  obtain ⟨t1, t2, t3, t4, t5, t6, t7, t8, t9, t10⟩ := ends_toInt w
  have hi := settles_iterC _ _ (linHigh_settles w) k ((settles_length w).2.1.trans hk)
  by_cases hw : w = .w32 ∨ w = .w64
  · have lo := settles_iterC _ _ (linLow_settles w) k ((settles_length w).1.trans hk)
    have : lowEnd w = ONE w := by rcases hw with rfl | rfl <;> rfl
    rw [this] at lo
    exact iterC_between (lin_root_step w) (by rw [t2]; norm_num) (by rw [t2]; omega) (le_maximum a) lo hi
  · have h : ∀ x, linVal a = some x → 1 ≤ x := by tauto
    have na : a ≠ nar w.n := by
      rintro rfl
      rw [nar_toInt (by omega)] at ha
      have : (0 : ℤ) < 2 ^ (w.n - 1) := by positivity
      omega
    have h1 := h _ (linVal_qv na)
    have one := ONE_facts w
    rw [← qv_one (w := w)] at h1
    have o := (qv_le_iff one.2.2.1.2 na).mp h1
    exact iterC_between (lin_root_step w) (by rw [t4]; positivity) o (le_maximum a) (iterC_fix t7 k) hi

/-- C145 fails with 8 and 16 bits: from a number below 1 the roots end at the largest number below 1. -/
theorem lin_roots_stall (w : W) (hw : w = .w8 ∨ w = .w16) (a : T w) (x : ℚ) (ha : linVal a = some x) (h0 : 0 < x) (h1 : x < 1) (k : ℕ) (hk : w.n + 5 ≤ k) :
    iterC (linSquareRoot w) k a = .ok (ONE w - 1) ∧ ONE w - 1 ≠ ONE w := by
  have h8 := w.n_pos
  obtain ⟨t1, t2, t3, t4, t5, t6, t7, t8, t9, t10⟩ := ends_toInt w
  refine ⟨?_, fun h => by rw [h, t4] at t9; omega⟩
  have lo := settles_iterC _ _ (linLow_settles w) k ((settles_length w).1.trans hk)
  have : lowEnd w = ONE w - 1 := by rcases hw with rfl | rfl <;> rfl
  rw [this] at lo
  have na : a ≠ nar w.n := by
    rintro rfl
    simp [linVal] at ha
  rw [linVal_qv na, Option.some.injEq] at ha
  subst ha
  have one := ONE_facts w
  have o : ¬ (ONE w).toInt ≤ a.toInt := by
    rw [← qv_le_iff one.2.2.1.2 na, qv_one]
    exact not_le.mpr h1
  have z : ¬ a.toInt ≤ (0#w.n : T w).toInt := by
    rw [← qv_le_iff na (by cases w <;> decide), qv_zero]
    exact not_le.mpr h0
  rw [t4] at o
  rw [t3] at z
  exact iterC_between (lin_root_step w) (by rw [t2]; norm_num) (by rw [t2]; omega) (by rw [t9]; omega) lo (iterC_fix (t10 hw) k)

/-- Non-vacuity: 1/2 with 16 bits; 100 steps. -/
example : linVal (0x3800#16 : T .w16) = some (1 / 2) ∧ iterC (linSquareRoot .w16) 100 0x3800#16 = .ok 0x3fff#16 :=
  have h : linVal (0x3800#16 : T .w16) = some (1 / 2) := by decide +kernel
  ⟨h, (lin_roots_stall .w16 (Or.inr rfl) _ _ h (by norm_num) (by norm_num) 100 (by decide)).1⟩
example : iterC (linSquareRoot .w64) 69 1#64 = .ok 0x4000000000000000#64 :=
  lin_roots_reach_one_partial .w64 _ (by decide) (Or.inr (Or.inl rfl)) 69 (by decide)
example : iterC (squareRoot .w8) 13 0x7f#8 = .ok 0x40#8 := log_roots_reach_one .w8 _ (by decide) 13 (by decide)

/-! ## C146: repeated doubling and halving -/

theorem iterC_add {w : W} {f : T w → C (T w)} (j : ℕ) : ∀ (i : ℕ) (a b : T w), iterC f i a = .ok b → iterC f (i + j) a = iterC f j b
  | 0, a, b, h => by
    cases h
    rw [Nat.zero_add]
  | i + 1, a, b, h => by
    rw [Nat.add_right_comm]
    rw [iterC] at h ⊢
    cases hf : f a with
    | error u => rw [hf] at h; cases h
    | ok c =>
      rw [hf] at h
      exact iterC_add j i c b h

def double (w : W) (a : T w) : C (T w) := linAddition w a a
def halve (w : W) (two a : T w) : C (T w) := linDivision w a two

def AtLeast {w : W} (c : ℤ) (r : T w) : Prop := ∃ x : ℚ, linVal r = some x ∧ (2 : ℚ) ^ c ≤ x
def AtMost {w : W} (c : ℤ) (r : T w) : Prop := ∃ x : ℚ, linVal r = some x ∧ 0 < x ∧ x ≤ (2 : ℚ) ^ c

theorem ends_value {w : W} (hw : w ≠ .w8) : ∃ l h : ℚ, linVal (1#w.n : T w) = some l ∧ linVal (POSITIVE_MAXIMUM w) = some h ∧
    (2 : ℚ) ^ (-255 : ℤ) ≤ l ∧ h ≤ 2 ^ (255 : ℤ) := by
  cases w
  · exact absurd rfl hw
  all_goals exact ⟨qv _, qv _, linVal_qv (by decide), linVal_qv (by decide), by decide +kernel, by decide +kernel⟩

theorem linVal_order {w : W} {a b : T w} {x y : ℚ} (ha : linVal a = some x) (hb : linVal b = some y) : a.toInt ≤ b.toInt ↔ x ≤ y := by
  have := value_order .lin (value_lin ha) (value_lin hb)
  rw [this]
  exact Rat.cast_le

theorem linVal_some {w : W} {a : T w} (h : a ≠ nar w.n) : ∃ x, linVal a = some x := ⟨_, linVal_qv h⟩

theorem not_nar {w : W} {a : T w} (h : 0 ≤ a.toInt) : a ≠ nar w.n := by
  have h8 := w.n_pos
  rintro rfl
  rw [nar_toInt (by omega)] at h
  have : (0 : ℤ) < 2 ^ (w.n - 1) := by positivity
  omega

theorem double_step {w : W} {r t : T w} {x y : ℚ} (hr : linVal r = some x) (ht : linVal t = some y) (h : y ≤ 2 * x) (h0 : 0 ≤ t.toInt) :
    ∃ s z, double w r = .ok s ∧ linVal s = some z ∧ t.toInt ≤ s.toInt ∧ y ≤ z := by
  obtain ⟨t', s, e1, e2, o⟩ := lin_operations_ordered w (.self t) (.add r r) _ _ (.self (value_lin ht)) (.add (value_lin hr) (value_lin hr))
    (by rw [← two_mul]; exact_mod_cast h)
  cases e1
  obtain ⟨z, hz⟩ := linVal_some (not_nar (h0.trans o))
  exact ⟨s, z, e2, hz, o, (linVal_order ht hz).mp o⟩

theorem pow_value {w : W} (hw : w ≠ .w8) (c : ℤ) (h1 : -254 ≤ c) (h2 : c ≤ 254) : ∃ t : T w, linVal t = some ((2 : ℚ) ^ c) ∧ 0 < t.toInt := by
  obtain ⟨t, -, ht, -⟩ := lin_powers_of_two w hw c (abs_le.mpr ⟨h1, h2⟩)
  refine ⟨t, ht, ?_⟩
  have z : linVal (0#w.n : T w) = some 0 := by rw [linVal_qv (by cases w <;> decide), qv_zero]
  have := (linVal_order ht z).not.mpr (not_le.mpr (by positivity))
  rw [(ends_toInt w).2.2.1] at this
  omega

theorem double_grows {w : W} (hw : w ≠ .w8) : ∀ (k : ℕ) (c : ℤ) (r : T w), -255 ≤ c → c + k ≤ 254 → AtLeast c r →
    ∃ s : T w, iterC (double w) k r = .ok s ∧ AtLeast (c + k) s
  | 0, c, r, _, _, h => ⟨r, rfl, by simpa using h⟩
  | k + 1, c, r, h1, h2, ⟨x, hx, h⟩ => by
    push_cast at h2
    obtain ⟨t, ht, t0⟩ := pow_value hw (c + 1) (by omega) (by omega)
    obtain ⟨s, z, e, hz, -, o⟩ := double_step hx ht (by rw [zpow_add_one₀ (by norm_num)]; linarith) t0.le
    rw [iterC_succ e]
    obtain ⟨s', e', h'⟩ := double_grows hw k (c + 1) s (by omega) (by omega) ⟨z, hz, o⟩
    exact ⟨s', e', by push_cast; rwa [add_comm (k : ℤ) 1, ← add_assoc]⟩

theorem double_top {w : W} (hw : w ≠ .w8) {r : T w} (h : AtLeast 254 r) : double w r = .ok (POSITIVE_MAXIMUM w) := by
  obtain ⟨x, hx, h⟩ := h
  obtain ⟨l, m, hl, hm, -, h2⟩ := ends_value hw
  have h0 : 0 ≤ (POSITIVE_MAXIMUM w).toInt := (ends_toInt w).2.2.1 ▸ le_maximum 0#w.n
  obtain ⟨s, z, e, -, o, -⟩ := double_step hx hm (h2.trans (by rw [show (255 : ℤ) = 254 + 1 by norm_num, zpow_add_one₀ (by norm_num)]; linarith)) h0
  rw [e, BitVec.toInt_inj.mp (le_antisymm (le_maximum s) o)]

theorem pos_value {w : W} {a : T w} (ha : 0 < a.toInt) : ∃ x, linVal a = some x ∧ 0 < x := by
  obtain ⟨x, hx⟩ := linVal_some (not_nar ha.le)
  have z : linVal (0#w.n : T w) = some 0 := by rw [linVal_qv (by cases w <;> decide), qv_zero]
  have := (linVal_order hx z).not.mp (by rw [(ends_toInt w).2.2.1]; omega)
  exact ⟨x, hx, not_le.mp this⟩

/-- C146: a positive linear takum of 16, 32 or 64 bits that is doubled again and again reaches the largest number after at most 510
steps. -/
theorem lin_doubling_reaches_partial (w : W) (hw : w ≠ .w8) (a : T w) (ha : 0 < a.toInt) (k : ℕ) (hk : 510 ≤ k) :
    iterC (double w) k a = .ok (POSITIVE_MAXIMUM w) := by
  obtain ⟨x, hx, -⟩ := pos_value ha
  obtain ⟨l, m, hl, hm, h1, h2⟩ := ends_value hw
  have o := (linVal_order hl hx).mp (by rw [(ends_toInt w).2.1]; omega)
  obtain ⟨s, e, hs⟩ := double_grows hw 509 (-255) a (by norm_num) (by norm_num) ⟨x, hx, h1.trans o⟩
  obtain ⟨j, rfl⟩ : ∃ j, k = 509 + (j + 1) := ⟨k - 510, by omega⟩
  rw [iterC_add (j + 1) 509 a s e, iterC_succ (double_top hw hs)]
  obtain ⟨t, ht, t0⟩ := pow_value hw 254 (by norm_num) (by norm_num)
  exact iterC_fix (double_top hw ⟨m, hm, (linVal_order ht hm).mp (le_maximum t)⟩) j

theorem halve_step {w : W} {two r t : T w} {x y : ℚ} (h2 : linVal two = some 2) (hr : linVal r = some x) (h0 : 0 < x) (ht : linVal t = some y) (h : x / 2 ≤ y) :
    ∃ s z, halve w two r = .ok s ∧ linVal s = some z ∧ 0 < z ∧ 0 < s.toInt ∧ s.toInt ≤ t.toInt ∧ z ≤ y := by
  obtain ⟨s, t', e1, e2, o⟩ := lin_operations_ordered w (.div r two) (.self t) _ _ (.div (value_lin hr) (value_lin h2) (by norm_num)) (.self (value_lin ht))
    (by exact_mod_cast h)
  cases e2
  have reg : ∀ {u : T w} {v : ℚ}, linVal u = some v → 0 < v → Regular u ∧ 0 < u.toInt := by
    intro u v hu hv
    have z : linVal (0#w.n : T w) = some 0 := by rw [linVal_qv (by cases w <;> decide), qv_zero]
    have := (linVal_order hu z).not.mpr (not_le.mpr hv)
    rw [(ends_toInt w).2.2.1] at this
    refine ⟨⟨?_, ?_⟩, by omega⟩
    · rintro rfl
      rw [(ends_toInt w).2.2.1] at this
      omega
    · rintro rfl
      simp [linVal] at hu
  obtain ⟨r1, r2⟩ := reg hr h0
  obtain ⟨t1, t2⟩ := reg h2 (by norm_num)
  obtain ⟨q, e3, rq, sq⟩ := lin_division_regular w r two r1 t1
  rw [show linDivision w r two = .ok s from e1] at e3
  cases e3
  have sp : 0 < s.toInt := by
    have : ¬ s.toInt < 0 := by
      rw [sq]
      omega
    have : s.toInt ≠ 0 := fun h => rq.1 (BitVec.toInt_inj.mp (h.trans (ends_toInt w).2.2.1.symm))
    omega
  obtain ⟨z, hz, z0⟩ := pos_value sp
  exact ⟨s, z, e1, hz, z0, sp, o, (linVal_order hz ht).mp o⟩

theorem halve_shrinks {w : W} (hw : w ≠ .w8) {two : T w} (h2 : linVal two = some 2) : ∀ (k : ℕ) (c : ℤ) (r : T w), c ≤ 255 → -254 ≤ c - k → AtMost c r →
    ∃ s : T w, iterC (halve w two) k r = .ok s ∧ AtMost (c - k) s
  | 0, c, r, _, _, h => ⟨r, rfl, by simpa using h⟩
  | k + 1, c, r, h3, h4, ⟨x, hx, h0, h⟩ => by
    push_cast at h4
    obtain ⟨t, ht, t0⟩ := pow_value hw (c - 1) (by omega) (by omega)
    obtain ⟨s, z, e, hz, z0, -, -, o⟩ := halve_step h2 hx h0 ht (by rw [zpow_sub_one₀ (by norm_num)]; linarith)
    rw [iterC_succ e]
    obtain ⟨s', e', h'⟩ := halve_shrinks hw h2 k (c - 1) s (by omega) (by omega) ⟨z, hz, z0, o⟩
    exact ⟨s', e', by push_cast; rwa [add_comm (k : ℤ) 1, ← sub_sub]⟩

theorem halve_bottom {w : W} (hw : w ≠ .w8) {two r : T w} (h2 : linVal two = some 2) (h : AtMost (-254) r) : halve w two r = .ok (POSITIVE_MINIMUM w) := by
  obtain ⟨x, hx, h0, h⟩ := h
  obtain ⟨l, m, hl, hm, h1, -⟩ := ends_value hw
  obtain ⟨s, z, e, -, -, sp, o, -⟩ := halve_step h2 hx h0 hl (le_trans (by rw [show (-255 : ℤ) = -254 - 1 by norm_num, zpow_sub_one₀ (by norm_num), div_eq_mul_inv]; exact mul_le_mul_of_nonneg_right h (by norm_num)) h1)
  rw [e]
  rw [(ends_toInt w).2.1] at o
  congr 1
  exact BitVec.toInt_inj.mp (by rw [POSITIVE_MINIMUM, (ends_toInt w).2.1]; omega)

/-- C146: halved again and again it reaches the smallest positive number after at most 510 steps; it never becomes zero. -/
theorem lin_halving_reaches_partial (w : W) (hw : w ≠ .w8) (two a : T w) (h2 : linVal two = some 2) (ha : 0 < a.toInt) (k : ℕ) (hk : 510 ≤ k) :
    iterC (halve w two) k a = .ok (POSITIVE_MINIMUM w) := by
  obtain ⟨x, hx, x0⟩ := pos_value ha
  obtain ⟨l, m, hl, hm, h3, h4⟩ := ends_value hw
  have o := (linVal_order hx hm).mp (le_maximum a)
  obtain ⟨s, e, hs⟩ := halve_shrinks hw h2 509 255 a (by norm_num) (by norm_num) ⟨x, hx, x0, o.trans h4⟩
  obtain ⟨j, rfl⟩ : ∃ j, k = 509 + (j + 1) := ⟨k - 510, by omega⟩
  rw [iterC_add (j + 1) 509 a s e, iterC_succ (halve_bottom hw h2 hs)]
  obtain ⟨t, ht, t0⟩ := pow_value hw (-254) (by norm_num) (by norm_num)
  obtain ⟨l', hl', l0⟩ := pos_value (w := w) (a := 1#w.n) (by rw [(ends_toInt w).2.1]; norm_num)
  exact iterC_fix (halve_bottom hw h2 ⟨l', hl', l0, (linVal_order hl' ht).mp (by rw [(ends_toInt w).2.1]; omega)⟩) j

/-- C146 fails with 8 bits: the smallest number does not grow when it is doubled, the largest one does not shrink when it is halved. -/
theorem doubling_refuted : (∀ k, iterC (double .w8) k 1#8 = .ok 1#8) ∧ linVal (0x48#8 : T .w8) = some 2 ∧ ∀ k, iterC (halve .w8 0x48#8) k 0x7f#8 = .ok 0x7f#8 :=
  ⟨iterC_fix (by decide +kernel), by decide +kernel, iterC_fix (by decide +kernel)⟩

/-- Non-vacuity: from the smallest number to the largest and back, with 64 bits. -/
example : iterC (double .w64) 510 1#64 = .ok 0x7fffffffffffffff#64 := lin_doubling_reaches_partial .w64 (by decide) _ (by decide) 510 le_rfl
example : iterC (halve .w16 0x4800#16) 510 0x7fff#16 = .ok 1#16 :=
  lin_halving_reaches_partial .w16 (by decide) _ _ (by decide +kernel) (by decide) 510 le_rfl

end Takum
