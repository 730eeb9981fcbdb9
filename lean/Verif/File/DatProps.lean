import Verif.File.Dat
import Verif.Float.Sum
import Mathlib.Tactic.Linarith
import Mathlib.Tactic.NormNum
import Mathlib.Tactic.Ring

/-!
# Properties of `.dat` files

Specification: a line is split at its tabs into columns, and a column is read as a decimal number.
-/

namespace Bliss.File

open Bliss.Hit Bliss.Float

/-- The `j`-th column of a line. -/
def column (j : Nat) (line : List Char) : List Char := (splitOn '\t' line).getD j []

/-- What the row of a hit has to say: `u` is the relative error of one double operation. -/
structure RowSays (u : ℚ) (n : Nat) (h : Hit ℚ ℚ) (row : List Char) : Prop where
  columns : (splitOn '\t' row).length = 12
  number : readNat (column 0 row) = some n
  drift : ∃ q, readDec (column 1 row) = some q ∧ |q - h.driftRate| ≤ 1 / (2 * 10 ^ 6)
  snr : ∃ q, readDec (column 2 row) = some q ∧ |q - h.snr| ≤ 1 / (2 * 10 ^ 6)
  mid : ∃ q, readDec (column 3 row) = some q ∧ readDec (column 4 row) = some q ∧
    |q - (h.startFreqMHz + h.duration * h.driftRate / 10 ^ 6 / 2)| ≤ 1 / (2 * 10 ^ 6) +
      16 * u * (|h.startFreqMHz| + |h.duration * h.driftRate / 10 ^ 6|)
  index : readInt (column 5 row) = some h.startFreqIndex
  start : ∃ q, readDec (column 6 row) = some q ∧ |q - h.startFreqMHz| ≤ 1 / (2 * 10 ^ 6)
  stop : ∃ q, readDec (column 7 row) = some q ∧
    |q - (h.startFreqMHz + h.duration * h.driftRate / 10 ^ 6)| ≤ 1 / (2 * 10 ^ 6) +
      16 * u * (|h.startFreqMHz| + |h.duration * h.driftRate / 10 ^ 6|)
  zeros : readDec (column 8 row) = some 0 ∧ readDec (column 9 row) = some 0
  coarse : readInt (column 10 row) = some h.coarseChannel
  width : readInt (column 11 row) = some h.binwidth

/-! ## Words -/

/-- No white space. -/
def Word (s : List Char) : Prop := ∀ c ∈ s, notSpace c = true

theorem notSpace_digit {c : Char} (h : IsDigit c) : notSpace c = true := by
  unfold notSpace isSpace
  have h1 : c ≠ ' ' := isDigit_ne h (by decide)
  have h2 : c ≠ '\t' := isDigit_ne h (by decide)
  have h3 : c ≠ '\n' := isDigit_ne h (by decide)
  have h4 : c ≠ '\x0b' := isDigit_ne h (by decide)
  have h5 : c ≠ '\x0c' := isDigit_ne h (by decide)
  have h6 : c ≠ '\r' := isDigit_ne h (by decide)
  simp [h1, h2, h3, h4, h5, h6]

theorem Word.append {s t : List Char} (hs : Word s) (ht : Word t) : Word (s ++ t) := by
  intro c hc
  rcases List.mem_append.1 hc with h | h
  · exact hs c h
  · exact ht c h

theorem Word.cons {c : Char} {t : List Char} (hc : notSpace c = true) (ht : Word t) :
    Word (c :: t) := by
  intro d hd
  rcases List.mem_cons.1 hd with rfl | h
  · exact hc
  · exact ht d h

theorem word_nil : Word [] := fun _ h => by simp at h

theorem word_digits {s : List Char} (h : ∀ c ∈ s, IsDigit c) : Word s :=
  fun c hc => notSpace_digit (h c hc)

theorem Word.notMem {s : List Char} (h : Word s) {c : Char} (hc : isSpace c = true) : c ∉ s := by
  intro hm
  have := h c hm
  rw [notSpace, hc] at this
  simp at this

theorem word_fixed (p : Nat) (x : ℚ) : Word (fixedStr p x) := by
  unfold fixedStr
  refine Word.append (Word.append ?_ (word_digits (natStr_digit _)))
    (Word.cons (by decide) (word_digits (padLeft_digit _ _)))
  split
  · exact Word.cons (by decide) word_nil
  · exact word_nil

theorem fixed_length (x : ℚ) : 8 ≤ (fixedStr 6 x).length := by
  unfold fixedStr
  have h : 0 < (natStr ((nearInt (|x| * 10 ^ 6)).toNat / 10 ^ 6)).length :=
    List.length_pos_iff.2 (natStr_ne_nil _)
  have h2 := padLeft_length 6 ((nearInt (|x| * 10 ^ 6)).toNat % 10 ^ 6) (by norm_num)
    (Nat.mod_lt _ (by positivity))
  simp only [List.length_append, List.length_cons, h2]
  omega

/-- The widths are always reached. -/
theorem width_fixed {w : Nat} (hw : w ≤ 8) (x : ℚ) : widthFixed w x = fixedStr 6 x := by
  unfold widthFixed padLeft
  have := fixed_length x
  rw [Nat.sub_eq_zero_of_le (by omega)]
  rfl

theorem word_int (n : Int) : Word (intStr n) := by
  unfold intStr
  split
  · exact Word.cons (by decide) (word_digits (natStr_digit _))
  · exact word_digits (natStr_digit _)

theorem fixed_ne_nil (x : ℚ) : fixedStr 6 x ≠ [] := by
  have := fixed_length x
  intro h
  rw [h] at this
  simp at this

theorem int_ne_nil (n : Int) : intStr n ≠ [] := by
  unfold intStr
  split
  · simp
  · exact natStr_ne_nil _

/-- Every field is a non-empty word. -/
theorem datFields_word (rd : ℚ → ℚ) (k : Nat) (h : Hit ℚ ℚ) :
    ∀ f ∈ datFields rd k h, Word f ∧ f ≠ [] := by
  have hx (w : Nat) (hw : w ≤ 8) (x : ℚ) : Word (widthFixed w x) ∧ widthFixed w x ≠ [] := by
    rw [width_fixed hw]
    exact ⟨word_fixed _ _, fixed_ne_nil _⟩
  have hk : Word (padLeft 6 '0' (natStr k)) ∧ padLeft 6 '0' (natStr k) ≠ [] := by
    refine ⟨word_digits (padLeft_digit _ _), ?_⟩
    unfold padLeft
    intro h
    exact natStr_ne_nil k (List.append_eq_nil_iff.1 h).2
  have hi (n : Int) : Word (intStr n) ∧ intStr n ≠ [] := ⟨word_int n, int_ne_nil n⟩
  intro f hf
  simp only [datFields, List.mem_cons, List.not_mem_nil, or_false] at hf
  rcases hf with rfl | rfl | rfl | rfl | rfl | rfl | rfl | rfl | rfl | rfl | rfl | rfl
  · exact hk
  · exact hx _ (by norm_num) _
  · exact hx _ (by norm_num) _
  · exact hx _ (by norm_num) _
  · exact hx _ (by norm_num) _
  · exact hi _
  · exact hx _ (by norm_num) _
  · exact hx _ (by norm_num) _
  · exact hx _ (by norm_num) _
  · exact hx _ (by norm_num) _
  · exact hi _
  · exact hi _

theorem splitOn_joinTab {fs : List (List Char)} (hne : fs ≠ []) (h : ∀ f ∈ fs, '\t' ∉ f) :
    splitOn '\t' (joinTab fs) = fs := by
  induction fs with
  | nil => exact absurd rfl hne
  | cons f fs ih =>
    cases fs with
    | nil => exact splitOn_last (h f (by simp))
    | cons g fs =>
      rw [joinTab, splitOn_cons (h f (by simp)), ih (by simp) (fun x hx => h x (by simp [hx]))]
      simp

theorem joinTab_notMem {fs : List (List Char)} {c : Char} (hc : c ≠ '\t') (h : ∀ f ∈ fs, c ∉ f) :
    c ∉ joinTab fs := by
  induction fs with
  | nil => simp [joinTab]
  | cons f fs ih =>
    cases fs with
    | nil => exact h f (by simp)
    | cons g fs =>
      have := ih (fun x hx => h x (by simp [hx]))
      simp only [joinTab, List.mem_append, List.mem_cons, not_or] at this ⊢
      exact ⟨h f (by simp), hc, this⟩

theorem datFields_notMem (rd : ℚ → ℚ) (k : Nat) (h : Hit ℚ ℚ) {c : Char} (hc : isSpace c = true) :
    ∀ f ∈ datFields rd k h, c ∉ f := fun f hf => ((datFields_word rd k h f hf).1).notMem hc

theorem row_columns (rd : ℚ → ℚ) (k : Nat) (h : Hit ℚ ℚ) :
    splitOn '\t' (joinTab (datFields rd k h)) = datFields rd k h :=
  splitOn_joinTab (by simp [datFields]) (datFields_notMem rd k h (by decide))

theorem splitOn_flat {ls : List (List Char)} (h : ∀ l ∈ ls, '\n' ∉ l) :
    splitOn '\n' (ls.flatMap (· ++ ['\n'])) = ls ++ [[]] := by
  induction ls with
  | nil => simp [splitOn]
  | cons l ls ih =>
    rw [List.flatMap_cons, List.append_assoc, List.singleton_append, splitOn_cons (h l (by simp)),
      ih (fun x hx => h x (by simp [hx]))]
    simp

theorem getLines_flat {ls : List (List Char)} (h : ∀ l ∈ ls, '\n' ∉ l) :
    getLines (ls.flatMap (· ++ ['\n'])) = ls := by
  unfold getLines
  rw [splitOn_flat h]
  simp

theorem datRows_get (rd : ℚ → ℚ) (k : Nat) (hs : List (Hit ℚ ℚ)) (i : Nat) :
    (datRows rd k hs)[i]? = (hs[i]?).map fun h => joinTab (datFields rd (k + i) h) := by
  induction hs generalizing k i with
  | nil => simp [datRows]
  | cons h hs ih =>
    cases i with
    | zero => simp [datRows]
    | succ i =>
      rw [datRows, List.getElem?_cons_succ, ih, List.getElem?_cons_succ]
      congr 3
      funext x
      congr 2
      omega

theorem datRows_length (rd : ℚ → ℚ) (k : Nat) (hs : List (Hit ℚ ℚ)) :
    (datRows rd k hs).length = hs.length := by
  induction hs generalizing k with
  | nil => rfl
  | cons h hs ih => simp [datRows, ih]

theorem datRows_notMem (rd : ℚ → ℚ) (k : Nat) (hs : List (Hit ℚ ℚ)) :
    ∀ l ∈ datRows rd k hs, '\n' ∉ l := by
  induction hs generalizing k with
  | nil => simp [datRows]
  | cons h hs ih =>
    intro l hl
    rw [datRows, List.mem_cons] at hl
    rcases hl with rfl | hl
    · exact joinTab_notMem (by decide) (datFields_notMem rd k h (by decide))
    · exact ih _ l hl

/-! ## Coordinates contain no white space -/

theorem word_pad2 (n : Int) : Word (pad2 n) := by
  unfold pad2
  split
  · exact Word.cons (by decide) (word_digits (padLeft_digit _ _))
  · exact word_digits (padLeft_digit _ _)

theorem word_padLeft {w : Nat} {s : List Char} (h : Word s) : Word (padLeft w '0' s) := by
  unfold padLeft
  refine Word.append (fun c hc => ?_) h
  rw [List.eq_of_mem_replicate hc]
  decide

theorem word_padFixed (w p : Nat) (x : ℚ) : Word (padFixed w p x) := by
  unfold padFixed
  split
  · exact Word.cons (by decide) (word_padLeft (word_fixed _ _))
  · exact word_padLeft (word_fixed _ _)

theorem word_ra (rd : ℚ → ℚ) (x : ℚ) : Word (raStr rd x) := by
  unfold raStr
  exact Word.append (Word.append (Word.append (word_pad2 _) (Word.cons (by decide) (word_pad2 _)))
    (Word.cons (by decide) (word_padFixed _ _ _))) (Word.cons (by decide) word_nil)

theorem word_dec (rd : ℚ → ℚ) (x : ℚ) : Word (decStr rd x) := by
  unfold decStr
  refine Word.append (Word.append (Word.append (Word.cons ?_ (word_pad2 _))
    (Word.cons (by decide) (word_pad2 _))) (Word.cons (by decide) (word_padFixed _ _ _)))
    (Word.cons (by decide) word_nil)
  split <;> decide

/-- A scan whose texts can be written: no newline in the path or the source name, and the text of
the start time is a non-empty word. -/
structure Writable (showD : ℚ → List Char) (s : DatScan) : Prop where
  path : '\n' ∉ s.path.getD "n/a".toList
  source : '\n' ∉ s.source.getD "n/a".toList
  tstart : Word (showD s.tstart) ∧ showD s.tstart ≠ []

theorem coordLine_notMem {rd : ℚ → ℚ} {showD : ℚ → List Char} {s : DatScan}
    (w : Writable showD s) : '\n' ∉ coordLine rd showD s := by
  unfold coordLine
  have h1 := w.tstart.1.notMem (c := '\n') (by decide)
  have h2 := (word_ra rd s.raj).notMem (c := '\n') (by decide)
  have h3 := (word_dec rd s.dej).notMem (c := '\n') (by decide)
  simp only [List.mem_append, not_or]
  exact ⟨⟨⟨⟨⟨by decide, h1⟩, by decide⟩, h2⟩, by decide⟩, h3⟩

theorem stepLine_notMem {rd : ℚ → ℚ} {s : DatScan} : '\n' ∉ stepLine rd s := by
  unfold stepLine
  rw [width_fixed (by norm_num), width_fixed (by norm_num), width_fixed (by norm_num)]
  have h (x : ℚ) := (word_fixed 6 x).notMem (c := '\n') (by decide)
  simp only [List.mem_append, not_or]
  exact ⟨⟨⟨⟨⟨by decide, h _⟩, by decide⟩, h _⟩, by decide⟩, h _⟩

theorem datHeader_notMem {rd : ℚ → ℚ} {showD : ℚ → List Char} {s : DatScan}
    (w : Writable showD s) : ∀ l ∈ datHeader rd showD s, '\n' ∉ l := by
  intro l hl
  simp only [datHeader, List.mem_cons, List.not_mem_nil, or_false] at hl
  rcases hl with rfl | rfl | rfl | rfl | rfl | rfl | rfl | rfl | rfl
  · decide
  · simp only [List.mem_append, not_or]; exact ⟨by decide, w.path⟩
  · decide
  · simp only [List.mem_append, not_or]; exact ⟨by decide, w.source⟩
  · exact coordLine_notMem w
  · exact stepLine_notMem
  · decide
  · decide
  · decide

/-- The lines of the file. -/
theorem datFile_lines {rd : ℚ → ℚ} {showD : ℚ → List Char} {s : DatScan} (w : Writable showD s) :
    getLines (datFile rd showD s) = datHeader rd showD s ++ datRows rd 1 s.hits := by
  unfold datFile
  refine getLines_flat fun l hl => ?_
  rcases List.mem_append.1 hl with h | h
  · exact datHeader_notMem w l h
  · exact datRows_notMem _ _ _ l h

/-! ## C89: the rows -/

theorem endFreq_err {rd : ℚ → ℚ} {u : ℚ} (hu : 0 ≤ u) (hu1 : u ≤ 1) (hr : RelErr rd u)
    (h : Hit ℚ ℚ) :
    |endFreq rd h - (h.startFreqMHz + h.duration * h.driftRate / 10 ^ 6)| ≤
      u * |h.startFreqMHz| + 7 * u * |h.duration * h.driftRate / 10 ^ 6| := by
  unfold endFreq
  generalize h.startFreqMHz = a
  generalize h.duration * h.driftRate = d
  have e1 := hr d
  have e2 := hr (rd d / 10 ^ 6)
  have e3 := hr (a + rd (rd d / 10 ^ 6))
  have hx : |rd d / 10 ^ 6 - d / 10 ^ 6| ≤ u * |d / 10 ^ 6| := by
    rw [← sub_div, abs_div, abs_div, abs_of_pos (by positivity : (0 : ℚ) < 10 ^ 6), mul_div_assoc',
      div_le_div_iff_of_pos_right (by positivity)]
    exact e1
  generalize rd (a + rd (rd d / 10 ^ 6)) = r at *
  generalize rd (rd d / 10 ^ 6) = y at *
  generalize rd d / 10 ^ 6 = z at *
  generalize d / 10 ^ 6 = x at *
  have hz : |z| ≤ (1 + u) * |x| := by
    have := abs_sub_abs_le_abs_sub z x
    linarith
  have hyx : |y - x| ≤ 3 * u * |x| := by
    have t : |y - x| ≤ |y - z| + |z - x| := by
      have := abs_add_le (y - z) (z - x); simpa using this
    have : u * |z| ≤ u * ((1 + u) * |x|) := mul_le_mul_of_nonneg_left hz hu
    have h2 : u * u * |x| ≤ u * 1 * |x| :=
      mul_le_mul_of_nonneg_right (mul_le_mul_of_nonneg_left hu1 hu) (abs_nonneg x)
    nlinarith
  have hy : |y| ≤ 4 * |x| := by
    have := abs_sub_abs_le_abs_sub y x
    have h2 : u * |x| ≤ 1 * |x| := mul_le_mul_of_nonneg_right hu1 (abs_nonneg x)
    linarith
  have ha : |a + y| ≤ |a| + 4 * |x| := (abs_add_le a y).trans (by linarith)
  have t : |r - (a + x)| ≤ |r - (a + y)| + |y - x| := by
    have := abs_add_le (r - (a + y)) (y - x)
    rwa [show r - (a + y) + (y - x) = r - (a + x) by ring] at this
  have h4 : u * |a + y| ≤ u * (|a| + 4 * |x|) := mul_le_mul_of_nonneg_left ha hu
  linarith

theorem midFreq_err {rd : ℚ → ℚ} {u : ℚ} (hu : 0 ≤ u) (hu1 : u ≤ 1) (hr : RelErr rd u)
    (h : Hit ℚ ℚ) :
    |midFreq rd h - (h.startFreqMHz + h.duration * h.driftRate / 10 ^ 6 / 2)| ≤
      16 * u * (|h.startFreqMHz| + |h.duration * h.driftRate / 10 ^ 6|) := by
  have he := endFreq_err hu hu1 hr h
  unfold midFreq
  generalize endFreq rd h = e at *
  generalize h.startFreqMHz = a at *
  generalize h.duration * h.driftRate / 10 ^ 6 = x at *
  have e1 := hr (a + e)
  have e2 := hr (rd (a + e) / 2)
  generalize rd (rd (a + e) / 2) = m at *
  generalize rd (a + e) = s at *
  have hs : |s| ≤ (1 + u) * |a + e| := by
    have := abs_sub_abs_le_abs_sub s (a + e)
    linarith
  have h2 : |s / 2| = |s| / 2 := by rw [abs_div, abs_of_pos (by norm_num : (0 : ℚ) < 2)]
  rw [h2] at e2
  have hee : |e| ≤ 2 * |a| + 8 * |x| := by
    have h1 := abs_sub_abs_le_abs_sub e (a + x)
    have h3 := abs_add_le a x
    have h4 : u * |a| ≤ 1 * |a| := mul_le_mul_of_nonneg_right hu1 (abs_nonneg a)
    have h5 : u * |x| ≤ 1 * |x| := mul_le_mul_of_nonneg_right hu1 (abs_nonneg x)
    linarith
  have hae : |a + e| ≤ 3 * |a| + 8 * |x| := (abs_add_le a e).trans (by linarith)
  have hus : u * |s| ≤ 2 * (u * |a + e|) := by
    have h1 := mul_le_mul_of_nonneg_left hs hu
    have h3 : u * u * |a + e| ≤ u * 1 * |a + e| :=
      mul_le_mul_of_nonneg_right (mul_le_mul_of_nonneg_left hu1 hu) (abs_nonneg _)
    nlinarith
  have huae : u * |a + e| ≤ u * (3 * |a| + 8 * |x|) := mul_le_mul_of_nonneg_left hae hu
  have t : |m - (a + x / 2)| ≤ |m - s / 2| + |s - (a + e)| / 2 + |e - (a + x)| / 2 := by
    have t1 := abs_add_le (m - s / 2) ((s - (a + e)) / 2 + (e - (a + x)) / 2)
    have t2 := abs_add_le ((s - (a + e)) / 2) ((e - (a + x)) / 2)
    rw [show m - s / 2 + ((s - (a + e)) / 2 + (e - (a + x)) / 2) = m - (a + x / 2) by ring] at t1
    rw [abs_div, abs_div, abs_of_pos (by norm_num : (0 : ℚ) < 2)] at t2
    linarith
  have p1 : 0 ≤ u * |a| := mul_nonneg hu (abs_nonneg a)
  have p2 : 0 ≤ u * |x| := mul_nonneg hu (abs_nonneg x)
  nlinarith

theorem near (x y b : ℚ) (h : |x - y| ≤ b) : |fixedVal 6 x - y| ≤ 1 / (2 * 10 ^ 6) + b := by
  have h1 := fixedVal_err 6 x
  have h2 := abs_add_le (fixedVal 6 x - x) (x - y)
  rw [show fixedVal 6 x - x + (x - y) = fixedVal 6 x - y by ring] at h2
  linarith

theorem fixedVal_zero : fixedVal 6 0 = 0 := fixedVal_exact 6 0 0 (by norm_num)

theorem row_says {rd : ℚ → ℚ} {u : ℚ} (hu : 0 ≤ u) (hu1 : u ≤ 1) (hr : RelErr rd u) (n : Nat)
    (h : Hit ℚ ℚ) : RowSays u n h (joinTab (datFields rd n h)) := by
  have hc := row_columns rd n h
  have p1 : 0 ≤ u * |h.startFreqMHz| := mul_nonneg hu (abs_nonneg _)
  have p2 : 0 ≤ u * |h.duration * h.driftRate / 10 ^ 6| := mul_nonneg hu (abs_nonneg _)
  refine
    { columns := by rw [hc]; rfl
      number := by
        rw [column, hc]; exact readNat_padLeft _ _
      drift := ⟨fixedVal 6 h.driftRate, ?_, fixedVal_err 6 _⟩
      snr := ⟨fixedVal 6 h.snr, ?_, fixedVal_err 6 _⟩
      mid := ⟨fixedVal 6 (midFreq rd h), ?_, ?_, near _ _ _ (midFreq_err hu hu1 hr h)⟩
      index := ?_
      start := ⟨fixedVal 6 h.startFreqMHz, ?_, fixedVal_err 6 _⟩
      stop := ⟨fixedVal 6 (endFreq rd h), ?_,
        near _ _ _ ((endFreq_err hu hu1 hr h).trans (by linarith))⟩
      zeros := ⟨?_, ?_⟩
      coarse := ?_
      width := ?_ }
  all_goals
    rw [column, hc]
    simp only [datFields, List.getD_cons_zero, List.getD_cons_succ]
  all_goals
    first
    | exact readInt_intStr _
    | (rw [width_fixed (by norm_num), readDec_fixed _ (by norm_num), fixedVal_zero])
    | (rw [width_fixed (by norm_num), readDec_fixed _ (by norm_num)])

/-- **C89 (partial).** After nine lines of header, the file has one line for each hit, in order and
numbered from 1, and the line says what the hit is. Missing: the names of the columns, see below. -/
theorem C89_rows_partial {rd : ℚ → ℚ} {u : ℚ} (hu : 0 ≤ u) (hu1 : u ≤ 1) (hr : RelErr rd u)
    {showD : ℚ → List Char} {s : DatScan} (w : Writable showD s) :
    (getLines (datFile rd showD s)).length = 9 + s.hits.length ∧
      ∀ i h, s.hits[i]? = some h →
        ∃ row, (getLines (datFile rd showD s))[9 + i]? = some row ∧ RowSays u (i + 1) h row := by
  rw [datFile_lines w]
  refine ⟨by simp [datRows_length, datHeader]; omega, fun i h hi => ?_⟩
  refine ⟨joinTab (datFields rd (1 + i) h), ?_, ?_⟩
  · rw [List.getElem?_append_right (by simp [datHeader])]
    rw [show (9 + i - (datHeader rd showD s).length) = i by simp [datHeader], datRows_get, hi]
    rfl
  · rw [Nat.add_comm 1 i]
    exact row_says hu hu1 hr _ h

/-- **C89 (part).** The names that the header gives to the first nine columns: with `C89_rows_partial`,
number, drift rate, SNR, frequency (the same under both names), index, first and last frequency stand
under their names. -/
theorem C89_first_columns_named {rd : ℚ → ℚ} {showD : ℚ → List Char} {s : DatScan}
    (w : Writable showD s) :
    ∃ names, (getLines (datFile rd showD s))[7]? = some names ∧
      (splitOn '\t' names).take 9 = ["# Top_Hit_#".toList, "Drift_Rate".toList, "SNR".toList,
        "Uncorrected_Frequency".toList, "Corrected_Frequency".toList, "Index".toList,
        "freq_start".toList, "freq_end".toList, "SEFD_freq".toList] := by
  rw [datFile_lines w]
  exact ⟨"# ".toList ++ joinTab datColumns, by simp [datHeader], by decide +kernel⟩

/-- **C89 is violated.** The header names eleven columns and a row has twelve: under the name of the
coarse channel every row has a zero, and the coarse channel stands under the number of hits. -/
theorem C89_columns_shifted {rd : ℚ → ℚ} {showD : ℚ → List Char} {s : DatScan}
    (w : Writable showD s) :
    ∃ names, (getLines (datFile rd showD s))[7]? = some names ∧
      (splitOn '\t' names).length = 11 ∧
      column 9 names = "Coarse_Channel_Number".toList ∧
      column 10 names = "Full_number_of_hits".toList ∧
      ∀ i h, s.hits[i]? = some h → ∃ row, (getLines (datFile rd showD s))[9 + i]? = some row ∧
        (splitOn '\t' row).length = 12 ∧ readDec (column 9 row) = some 0 ∧
        readInt (column 10 row) = some h.coarseChannel := by
  rw [datFile_lines w]
  refine ⟨"# ".toList ++ joinTab datColumns, by simp [datHeader], by decide +kernel,
    by decide +kernel, by decide +kernel, fun i h hi => ?_⟩
  refine ⟨joinTab (datFields rd (1 + i) h), ?_, ?_, ?_, ?_⟩
  · rw [List.getElem?_append_right (by simp [datHeader])]
    rw [show (9 + i - (datHeader rd showD s).length) = i by simp [datHeader], datRows_get, hi]
    rfl
  · rw [row_columns]; rfl
  · rw [column, row_columns]
    simp only [datFields, List.getD_cons_zero, List.getD_cons_succ]
    rw [width_fixed (by norm_num), readDec_fixed _ (by norm_num), fixedVal_zero]
  · rw [column, row_columns]
    simp only [datFields, List.getD_cons_zero, List.getD_cons_succ]
    exact readInt_intStr _

end Bliss.File
