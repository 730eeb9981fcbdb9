import Verif.File.DatProps
import Mathlib.Data.List.TakeWhile

/-!
# Reading a `.dat` file back
-/

namespace Bliss.File

open Bliss.Hit Bliss.Float

/-! ## What an expression matches -/

/-- The words of an atom. -/
def Atom.Lang : Atom → List Char → Prop
  | .one p, w => ∃ c, w = [c] ∧ p c = true
  | .plus p, w => w ≠ [] ∧ ∀ c ∈ w, p c = true
  | .opt c, w => w = [] ∨ w = [c]

/-- The words of a sequence of atoms. -/
def LangSeq : Pattern → List Char → Prop
  | [], w => w = []
  | a :: r, w => ∃ x y, w = x ++ y ∧ a.1.Lang x ∧ LangSeq r y

/-- A text begins with a word of the sequence. -/
def Parses : Pattern → List Char → Prop
  | [], _ => True
  | a :: r, s => ∃ x y, s = x ++ y ∧ a.1.Lang x ∧ Parses r y

theorem matchAt_sound (P : Pattern) (s : List Char) {m : List (Nat × List Char)}
    (h : matchAt P s = some m) : Parses P s := by
  induction P generalizing s m with
  | nil => trivial
  | cons a r ih =>
    obtain ⟨a, g⟩ := a
    cases a with
    | one p =>
      cases s with
      | nil => simp [matchAt] at h
      | cons c t =>
        unfold matchAt at h
        simp only at h
        split at h
        · rename_i hc
          rw [Option.map_eq_some_iff] at h
          obtain ⟨m', hm, _⟩ := h
          exact ⟨[c], t, rfl, ⟨c, rfl, hc⟩, ih t hm⟩
        · simp at h
    | opt c =>
      cases s with
      | nil =>
        simp only [matchAt] at h
        exact ⟨[], [], rfl, Or.inl rfl, ih _ h⟩
      | cons x t =>
        unfold matchAt at h
        simp only at h
        split at h
        · rename_i hx
          subst hx
          split at h
          · rename_i m' hm
            rw [Option.map_eq_some_iff] at hm
            obtain ⟨m'', hm, _⟩ := hm
            exact ⟨[x], t, rfl, Or.inr rfl, ih t hm⟩
          · exact ⟨[], x :: t, rfl, Or.inl rfl, ih _ h⟩
        · exact ⟨[], x :: t, rfl, Or.inl rfl, ih _ h⟩
    | plus p =>
      unfold matchAt at h
      rw [List.findSome?_eq_some_iff] at h
      obtain ⟨l1, k, l2, hl, hk, -⟩ := h
      rw [Option.map_eq_some_iff] at hk
      obtain ⟨m', hm, _⟩ := hk
      have hmem : k ∈ (List.range (s.takeWhile p).length).reverse := by rw [hl]; simp
      rw [List.mem_reverse, List.mem_range] at hmem
      refine ⟨s.take (k + 1), s.drop (k + 1), (List.take_append_drop _ _).symm, ⟨?_, ?_⟩, ih _ hm⟩
      · intro he
        have : (s.takeWhile p).length ≤ s.length := (List.takeWhile_prefix p).length_le
        have h2 := congrArg List.length he
        rw [List.length_take] at h2
        simp at h2
        rw [h2] at hmem
        simp at hmem
      · intro c hc
        have hp : s.take (k + 1) <+: s.takeWhile p := by
          refine List.prefix_of_prefix_length_le (List.take_prefix _ _) (List.takeWhile_prefix p) ?_
          rw [List.length_take]
          omega
        exact List.mem_takeWhile_imp (hp.subset hc)

theorem parses_append (A R : Pattern) (s : List Char) :
    Parses (A ++ R) s ↔ ∃ x y, s = x ++ y ∧ LangSeq A x ∧ Parses R y := by
  induction A generalizing s with
  | nil => simp [LangSeq]
  | cons a A ih =>
    simp only [List.cons_append, Parses, LangSeq]
    constructor
    · rintro ⟨x, y, rfl, hx, hy⟩
      obtain ⟨z, t, rfl, hz, ht⟩ := (ih y).1 hy
      exact ⟨x ++ z, t, by simp, ⟨x, z, rfl, hx, hz⟩, ht⟩
    · rintro ⟨w, t, rfl, ⟨x, z, rfl, hx, hz⟩, ht⟩
      exact ⟨x, z ++ t, by simp, hx, (ih _).2 ⟨z, t, rfl, hz, ht⟩⟩

/-- A pattern without white space. -/
def NoSp (A : Pattern) : Prop := ∀ a ∈ A, ∀ w, a.1.Lang w → Word w

theorem NoSp.word {A : Pattern} (h : NoSp A) {w : List Char} (hw : LangSeq A w) : Word w := by
  induction A generalizing w with
  | nil => rw [LangSeq] at hw; subst hw; exact word_nil
  | cons a A ih =>
    obtain ⟨x, y, rfl, hx, hy⟩ := hw
    exact Word.append (h a (by simp) x hx) (ih (fun b hb => h b (by simp [hb])) hy)

theorem takeWhile_word {f t : List Char} {b : Char} (hf : Word f) (hb : isSpace b = true) :
    (f ++ b :: t).takeWhile notSpace = f := by
  induction f with
  | nil => simp [notSpace, hb]
  | cons c f ih =>
    rw [List.cons_append, List.takeWhile_cons, if_pos (hf c (by simp)),
      ih fun d hd => hf d (by simp [hd])]

/-- White space in the pattern matches exactly the one separator in the text. -/
theorem parses_word {A R : Pattern} {f t : List Char} {b d : Char} (hA : NoSp A) (hf : Word f)
    (hb : isSpace b = true) (hd : notSpace d = true)
    (h : Parses (A ++ (spaces ++ R)) (f ++ b :: d :: t)) : LangSeq A f ∧ Parses R (d :: t) := by
  rw [parses_append] at h
  obtain ⟨w, y, e, hw, sp, r, rfl, ⟨hne, hsp⟩, hr⟩ := h
  have hww := hA.word hw
  obtain ⟨c, sp, rfl⟩ := List.exists_cons_of_ne_nil hne
  have hwf : w = f := by
    have h1 := takeWhile_word (t := sp ++ r) hww (hsp c (by simp))
    have h2 := takeWhile_word (t := d :: t) hf hb
    rw [e] at h2
    rw [← h1, ← h2]
    simp
  subst hwf
  have e2 := List.append_cancel_left e
  rw [List.cons_append, List.cons.injEq] at e2
  cases sp with
  | nil =>
    rw [List.nil_append] at e2
    exact ⟨hw, by rw [e2.2]; exact hr⟩
  | cons x sp =>
    exfalso
    have := e2.2
    rw [List.cons_append, List.cons.injEq] at this
    have hx := hsp x (by simp)
    rw [← this.1] at hx
    rw [notSpace, hx] at hd
    simp at hd

/-! ## No row is recognised -/

theorem isDigit_notSpace {c : Char} (h : isDigit c = true) : notSpace c = true :=
  notSpace_digit (of_decide_eq_true h)

theorem noSp_intP (g : Nat) : NoSp (intP g) := by
  intro a ha w hw
  rw [intP, List.mem_singleton] at ha
  subst ha
  exact fun c hc => isDigit_notSpace (hw.2 c hc)

theorem noSp_decP (g : Nat) : NoSp (decP g) := by
  intro a ha w hw
  simp only [decP, List.mem_cons, List.not_mem_nil, or_false] at ha
  rcases ha with rfl | rfl | rfl
  · exact fun c hc => isDigit_notSpace (hw.2 c hc)
  · obtain ⟨c, rfl, hc⟩ := hw
    rw [of_decide_eq_true hc]
    exact Word.cons (by decide) word_nil
  · exact fun c hc => isDigit_notSpace (hw.2 c hc)

theorem noSp_signed (g : Nat) : NoSp ((.opt '-', g) :: decP g) := by
  intro a ha w hw
  rw [List.mem_cons] at ha
  rcases ha with rfl | ha
  · rcases hw with rfl | rfl
    · exact word_nil
    · exact Word.cons (by decide) word_nil
  · exact noSp_decP g a ha w hw

/-- Patterns with white space between each two. -/
def joinSp : List Pattern → Pattern
  | [] => []
  | [p] => p
  | p :: ps => p ++ (spaces ++ joinSp ps)

theorem joinTab_cons (f g : List Char) (fs : List (List Char)) :
    joinTab (f :: g :: fs) = f ++ '\t' :: joinTab (g :: fs) := rfl

theorem joinTab_head {g : List Char} {fs : List (List Char)} (hg : Word g) (hne : g ≠ []) :
    ∃ d t, joinTab (g :: fs) = d :: t ∧ notSpace d = true := by
  obtain ⟨d, g', rfl⟩ := List.exists_cons_of_ne_nil hne
  cases fs with
  | nil => exact ⟨d, g', rfl, hg d (by simp)⟩
  | cons f fs => exact ⟨d, g' ++ '\t' :: joinTab (f :: fs), rfl, hg d (by simp)⟩

/-- Field by field. -/
theorem parses_join {ps : List Pattern} {fs : List (List Char)} (hp : ∀ p ∈ ps, NoSp p)
    (hf : ∀ f ∈ fs, Word f ∧ f ≠ []) (h : Parses (joinSp ps) (joinTab fs)) (i : Nat)
    (hi : i + 1 < ps.length) (hj : i + 1 < fs.length) :
    LangSeq (ps[i]'(by omega)) (fs[i]'(by omega)) := by
  induction i generalizing ps fs with
  | zero =>
    match ps, fs, hi, hj with
    | p :: q :: ps, f :: g :: fs, _, _ =>
      obtain ⟨d, t, e, hd⟩ := joinTab_head (fs := fs) (hf g (by simp)).1 (hf g (by simp)).2
      rw [joinTab_cons, e] at h
      exact (parses_word (hp p (by simp)) (hf f (by simp)).1 (by decide) hd h).1
  | succ i ih =>
    match ps, fs, hi, hj with
    | p :: q :: ps, f :: g :: fs, hi, hj =>
      obtain ⟨d, t, e, hd⟩ := joinTab_head (fs := fs) (hf g (by simp)).1 (hf g (by simp)).2
      rw [joinTab_cons, e] at h
      have h2 := (parses_word (hp p (by simp)) (hf f (by simp)).1 (by decide) hd h).2
      rw [← e] at h2
      exact ih (fun x hx => hp x (by simp [hx])) (fun x hx => hf x (by simp [hx])) h2
        (by simpa using hi) (by simpa using hj)

/-- The columns of `data_regex`. -/
def dataColumns : List Pattern :=
  [intP 1, (.opt '-', 2) :: decP 2, decP 3, decP 4, decP 5, intP 6, decP 7, decP 8, decP 9, intP 10,
    intP 11]

theorem dataPattern_eq : dataPattern = joinSp dataColumns := rfl

theorem dataColumns_noSp : ∀ p ∈ dataColumns, NoSp p := by
  intro p hp
  simp only [dataColumns, List.mem_cons, List.not_mem_nil, or_false] at hp
  rcases hp with rfl | rfl | rfl | rfl | rfl | rfl | rfl | rfl | rfl | rfl | rfl
  all_goals first | exact noSp_intP _ | exact noSp_decP _ | exact noSp_signed _

/-- The expression for a row wants digits only in the tenth column, and every row has a number with
a decimal point there. -/
theorem row_no_match (rd : ℚ → ℚ) (k : Nat) (h : Hit ℚ ℚ) :
    matchAt dataPattern (joinTab (datFields rd k h)) = none := by
  by_contra hne
  obtain ⟨m, hm⟩ := Option.ne_none_iff_exists'.1 hne
  have hp := matchAt_sound _ _ hm
  rw [dataPattern_eq] at hp
  have := parses_join dataColumns_noSp (datFields_word rd k h) hp 9 (by decide)
    (by simp [datFields])
  have e : (datFields rd k h)[9]'(by simp [datFields]) = widthFixed 6 0 := rfl
  rw [e, width_fixed (by norm_num)] at this
  obtain ⟨x, y, exy, ⟨-, hx⟩, hy⟩ := this
  rw [LangSeq] at hy
  subst hy
  rw [List.append_nil] at exy
  have hdot : '.' ∈ fixedStr 6 0 := by unfold fixedStr; simp
  rw [exy] at hdot
  exact absurd (hx '.' hdot) (by decide)

theorem row_head (rd : ℚ → ℚ) (k : Nat) (h : Hit ℚ ℚ) :
    ∃ c t, joinTab (datFields rd k h) = c :: t ∧ IsDigit c := by
  have hk := padLeft_digit 6 k
  have hne := (datFields_word rd k h (padLeft 6 '0' (natStr k)) (by simp [datFields])).2
  unfold datFields
  obtain ⟨c, t, e⟩ := List.exists_cons_of_ne_nil hne
  rw [e] at hk ⊢
  exact ⟨c, _, rfl, hk c (by simp)⟩

theorem not_comment {P : Pattern} {c : Char} {t : List Char} (hc : c ≠ '#') :
    matchAt (lit ['#'] ++ P) (c :: t) = none := by
  simp [lit, matchAt, hc]

theorem readLine_row (stod : List Char → Outcome ℚ) (d : DatRead) (rd : ℚ → ℚ) (k : Nat)
    (h : Hit ℚ ℚ) : readLine stod d (joinTab (datFields rd k h)) = .ok d := by
  have h3 := row_no_match rd k h
  obtain ⟨c, t, e, hc⟩ := row_head rd k h
  have hc' : c ≠ '#' := isDigit_ne hc (by decide)
  rw [e] at h3 ⊢
  unfold readLine
  have h1 : matchAt headerPattern (c :: t) = none := not_comment hc'
  have h2 : matchAt stepPattern (c :: t) = none := not_comment hc'
  rw [h1, h2, h3]
  rfl

theorem readLines_rows (stod : List Char → Outcome ℚ) (d : DatRead) (rd : ℚ → ℚ) (k : Nat)
    (hs : List (Hit ℚ ℚ)) : readLines stod d (datRows rd k hs) = .ok d := by
  induction hs generalizing k with
  | nil => rfl
  | cons h hs ih =>
    rw [datRows, readLines, readLine_row, Outcome.bind_ok, ih]

theorem readLines_append (stod : List Char → Outcome ℚ) (d : DatRead) (a b : List (List Char)) :
    readLines stod d (a ++ b) = (readLines stod d a >>= fun d' => readLines stod d' b) := by
  induction a generalizing d with
  | nil => rfl
  | cons l a ih =>
    simp only [List.cons_append, readLines, bind_assoc]
    congr 1
    funext d'
    exact ih d'

/-! ## The header -/

theorem m_lit {R : Pattern} {t : List Char} {m : List (Nat × List Char)} (l : List Char)
    (h : matchAt R t = some m) :
    matchAt (lit l ++ R) (l ++ t) = some (l.map (fun c => (0, [c])) ++ m) := by
  induction l with
  | nil => simpa [lit] using h
  | cons c l ih =>
    have e : matchAt (lit (c :: l) ++ R) (c :: l ++ t) =
        (matchAt (lit l ++ R) (l ++ t)).map ((0, [c]) :: ·) := by
      simp [lit, matchAt]
    rw [e, ih]
    rfl

theorem takeWhile_all {p : Char → Bool} {f t : List Char} (hf : ∀ c ∈ f, p c = true)
    (ht : t.takeWhile p = []) : (f ++ t).takeWhile p = f := by
  induction f with
  | nil => exact ht
  | cons c f ih =>
    rw [List.cons_append, List.takeWhile_cons, if_pos (hf c (by simp)),
      ih fun d hd => hf d (by simp [hd])]

theorem m_plus {R : Pattern} {t f : List Char} {m : List (Nat × List Char)} {p : Char → Bool}
    (g : Nat) (hf : ∀ c ∈ f, p c = true) (hne : f ≠ []) (ht : t.takeWhile p = [])
    (h : matchAt R t = some m) :
    matchAt ((.plus p, g) :: R) (f ++ t) = some ((g, f) :: m) := by
  unfold matchAt
  rw [takeWhile_all hf ht]
  have hl : f.length - 1 + 1 = f.length := by
    have := List.length_pos_iff.2 hne
    omega
  rw [← hl, List.range_succ, List.reverse_append, List.reverse_singleton, List.singleton_append,
    List.findSome?_cons, hl]
  simp [h]

theorem m_plus_none {R : Pattern} {s : List Char} {p : Char → Bool} {g : Nat}
    (h : s.takeWhile p = []) : matchAt ((.plus p, g) :: R) s = none := by
  unfold matchAt
  rw [h]
  rfl

theorem other_comment {c d : Char} {l t : List Char} {P : Pattern} (hd : notSpace d = true)
    (hcd : d ≠ c) :
    matchAt (lit ['#'] ++ (spaces ++ (lit (c :: l) ++ P))) ('#' :: ' ' :: d :: t) = none := by
  by_contra hne
  obtain ⟨m, hm⟩ := Option.ne_none_iff_exists'.1 hne
  have hp := matchAt_sound _ _ hm
  have hno : NoSp (lit ['#']) := by
    intro a ha w hw
    simp only [lit, List.map_cons, List.map_nil, List.mem_singleton] at ha
    subst ha
    obtain ⟨x, rfl, hx⟩ := hw
    rw [of_decide_eq_true hx]
    exact Word.cons (by decide) word_nil
  have h2 := (parses_word (f := ['#']) hno (Word.cons (by decide) word_nil)
    (by decide : isSpace ' ' = true) hd hp).2
  obtain ⟨x, y, e, ⟨z, rfl, hz⟩, -⟩ := h2
  rw [List.singleton_append, List.cons.injEq] at e
  rw [of_decide_eq_true hz] at e
  exact hcd e.1

theorem readLine_comment (stod : List Char → Outcome ℚ) (d : DatRead) {c : Char} {t : List Char}
    (hc : notSpace c = true) (h1 : c ≠ 'M') (h2 : c ≠ 'D') :
    readLine stod d ('#' :: ' ' :: c :: t) = .ok d := by
  unfold readLine
  have e1 : matchAt headerPattern ('#' :: ' ' :: c :: t) = none := by
    rw [show headerPattern = lit ['#'] ++ (spaces ++ (lit ('M' :: "JD:".toList) ++ (spaces ++
      [(.plus notSpace, 1)] ++ spaces ++ lit "RA:".toList ++ spaces ++ [(.plus notSpace, 2)] ++
      spaces ++ lit "DEC:".toList ++ [(.plus notSpace, 3)]))) from rfl]
    exact other_comment hc h1
  have e2 : matchAt stepPattern ('#' :: ' ' :: c :: t) = none := by
    rw [show stepPattern = lit ['#'] ++ (spaces ++ (lit ('D' :: "ELTAT:".toList) ++ (spaces ++
      [(.plus notSpace, 1)] ++ spaces ++ lit "DELTAF(Hz):".toList ++ spaces ++
      [(.plus notSpace, 2)] ++ spaces ++ lit "max_drift_rate:".toList ++ spaces ++
      [(.plus notSpace, 3)] ++ spaces ++ lit "obs_length:".toList ++ spaces ++
      [(.plus notSpace, 4)]))) from rfl]
    exact other_comment hc h2
  have e3 : matchAt dataPattern ('#' :: ' ' :: c :: t) = none := by
    rw [dataPattern_eq]
    exact m_plus_none rfl
  rw [e1, e2, e3]
  rfl

theorem match_coord {rd : ℚ → ℚ} {showD : ℚ → List Char} {s : DatScan} (w : Writable showD s) :
    ∃ m, matchAt headerPattern (coordLine rd showD s) = some m ∧ group 1 m = showD s.tstart := by
  have hsp (c : Char) (l : List Char) (h : notSpace c = true) : (c :: l).takeWhile isSpace = [] := by
    rw [notSpace, Bool.not_eq_true'] at h
    simp [h]
  have hword (c : Char) (l : List Char) (h : isSpace c = true) :
      (c :: l).takeWhile notSpace = [] := by
    simp [notSpace, h]
  have hra : Word (raStr rd s.raj ++ ['s']) :=
    Word.append (word_ra _ _) (Word.cons (by decide) word_nil)
  have hdne : decStr rd s.dej ≠ [] := by simp [decStr]
  have htne := w.tstart.2
  have htw := w.tstart.1
  have hdw := word_dec rd s.dej
  have hline : coordLine rd showD s = ['#'] ++ ([' '] ++ ("MJD:".toList ++ ([' '] ++
      (showD s.tstart ++ (['\t'] ++ ("RA:".toList ++ ([' '] ++ ((raStr rd s.raj ++ ['s']) ++
      (['\t'] ++ ("DEC:".toList ++ (decStr rd s.dej ++ []))))))))))) := by
    unfold coordLine
    simp only [List.append_assoc, List.append_nil]
    rfl
  have hpat : headerPattern = lit ['#'] ++ ((.plus isSpace, 0) :: (lit "MJD:".toList ++
      ((.plus isSpace, 0) :: (.plus notSpace, 1) :: (.plus isSpace, 0) :: (lit "RA:".toList ++
      ((.plus isSpace, 0) :: (.plus notSpace, 2) :: (.plus isSpace, 0) :: (lit "DEC:".toList ++
      ((.plus notSpace, 3) :: []))))))) := rfl
  rw [hline, hpat]
  refine ⟨_, m_lit ['#'] (m_plus 0 (by decide) (by decide) (hsp _ _ (by decide))
    (m_lit "MJD:".toList (m_plus 0 (by decide) (by decide) ?_
    (m_plus 1 htw htne (hword _ _ (by decide)) (m_plus 0 (by decide) (by decide)
    (hsp _ _ (by decide)) (m_lit "RA:".toList (m_plus 0 (by decide) (by decide) ?_
    (m_plus 2 hra (by simp) (hword _ _ (by decide)) (m_plus 0 (by decide) (by decide)
    (hsp _ _ (by decide)) (m_lit "DEC:".toList (m_plus 3 hdw hdne rfl (R := []) rfl))))))))))), ?_⟩
  · obtain ⟨c, t, e⟩ := List.exists_cons_of_ne_nil htne
    rw [e]
    exact hsp _ _ (htw c (by rw [e]; simp))
  · obtain ⟨c, t, e⟩ := List.exists_cons_of_ne_nil (show raStr rd s.raj ++ ['s'] ≠ [] by simp)
    rw [e]
    exact hsp _ _ (hra c (by rw [e]; simp))
  · simp [group]

theorem match_step {rd : ℚ → ℚ} {s : DatScan} :
    ∃ m, matchAt headerPattern (stepLine rd s) = none ∧ matchAt stepPattern (stepLine rd s) = some m ∧
      group 1 m = fixedStr 6 s.tsamp ∧ group 2 m = fixedStr 6 (rd (s.foff * 10 ^ 6)) := by
  have hsp (c : Char) (l : List Char) (h : notSpace c = true) : (c :: l).takeWhile isSpace = [] := by
    rw [notSpace, Bool.not_eq_true'] at h
    simp [h]
  have hword (c : Char) (l : List Char) (h : isSpace c = true) :
      (c :: l).takeWhile notSpace = [] := by
    simp [notSpace, h]
  have hx (x : ℚ) (l : List Char) : (fixedStr 6 x ++ l).takeWhile isSpace = [] := by
    obtain ⟨c, t, e⟩ := List.exists_cons_of_ne_nil (fixed_ne_nil x)
    rw [e]
    exact hsp _ _ (word_fixed 6 x c (by rw [e]; simp))
  have hline : stepLine rd s = ['#'] ++ ([' '] ++ ("DELTAT:".toList ++ ([' '] ++
      (fixedStr 6 s.tsamp ++ (['\t'] ++ ("DELTAF(Hz):".toList ++ ([' ', ' '] ++
      (fixedStr 6 (rd (s.foff * 10 ^ 6)) ++ ([' '] ++ ("max_drift_rate:".toList ++ ([' '] ++
      ("n/a".toList ++ (['\t'] ++ ("obs_length:".toList ++ ([' '] ++
      (fixedStr 6 (rd (s.ntsteps * s.tsamp)) ++ [])))))))))))))))) := by
    unfold stepLine
    rw [width_fixed (by norm_num), width_fixed (by norm_num), width_fixed (by norm_num)]
    simp only [List.append_assoc, List.append_nil]
    rfl
  have hpat : stepPattern = lit ['#'] ++ ((.plus isSpace, 0) :: (lit "DELTAT:".toList ++
      ((.plus isSpace, 0) :: (.plus notSpace, 1) :: (.plus isSpace, 0) ::
      (lit "DELTAF(Hz):".toList ++ ((.plus isSpace, 0) :: (.plus notSpace, 2) ::
      (.plus isSpace, 0) :: (lit "max_drift_rate:".toList ++ ((.plus isSpace, 0) ::
      (.plus notSpace, 3) :: (.plus isSpace, 0) :: (lit "obs_length:".toList ++
      ((.plus isSpace, 0) :: (.plus notSpace, 4) :: []))))))))) := rfl
  rw [hline, hpat]
  refine ⟨_, ?_, m_lit ['#'] (m_plus 0 (by decide) (by decide) (hsp _ _ (by decide))
    (m_lit "DELTAT:".toList (m_plus 0 (by decide) (by decide) (hx _ _)
    (m_plus 1 (word_fixed _ _) (fixed_ne_nil _) (hword _ _ (by decide))
    (m_plus 0 (by decide) (by decide) (hsp _ _ (by decide)) (m_lit "DELTAF(Hz):".toList
    (m_plus 0 (by decide) (by decide) (hx _ _)
    (m_plus 2 (word_fixed _ _) (fixed_ne_nil _) (hword _ _ (by decide))
    (m_plus 0 (by decide) (by decide) (hsp _ _ (by decide)) (m_lit "max_drift_rate:".toList
    (m_plus 0 (by decide) (by decide) (hsp _ _ (by decide))
    (m_plus 3 (by decide) (by decide) (hword _ _ (by decide))
    (m_plus 0 (by decide) (by decide) (hsp _ _ (by decide)) (m_lit "obs_length:".toList
    (m_plus 0 (by decide) (by decide) (hx _ _)
    (m_plus 4 (word_fixed _ _) (fixed_ne_nil _) rfl (R := []) rfl)))))))))))))))), ?_, ?_⟩
  · rw [show headerPattern = lit ['#'] ++ (spaces ++ (lit ('M' :: "JD:".toList) ++ (spaces ++
      [(.plus notSpace, 1)] ++ spaces ++ lit "RA:".toList ++ spaces ++ [(.plus notSpace, 2)] ++
      spaces ++ lit "DEC:".toList ++ [(.plus notSpace, 3)]))) from rfl]
    exact other_comment (d := 'D') (by decide) (by decide)
  · simp [group]
  · simp [group]

theorem readLine_coord {rd : ℚ → ℚ} {showD : ℚ → List Char} {stod : List Char → Outcome ℚ}
    {s : DatScan} (w : Writable showD s) (hts : stod (showD s.tstart) = .ok s.tstart) (d : DatRead) :
    readLine stod d (coordLine rd showD s) = .ok { d with tstart := some s.tstart } := by
  obtain ⟨m, hm, hg⟩ := match_coord (rd := rd) w
  unfold readLine
  simp only [hm, hg, hts]
  rfl

theorem readLine_step {rd : ℚ → ℚ} {stod : List Char → Outcome ℚ} {s : DatScan}
    (hst : ∀ t q, readDec t = some q → stod t = .ok (rd q)) (d : DatRead) :
    readLine stod d (stepLine rd s) = .ok { d with
      tsamp := some (rd (fixedVal 6 s.tsamp))
      foff := some (rd (fixedVal 6 (rd (s.foff * 10 ^ 6)))) } := by
  obtain ⟨m, h0, hm, h1, h2⟩ := match_step (rd := rd) (s := s)
  unfold readLine
  simp only [h0, hm, h1, h2]
  rw [hst _ _ (readDec_fixed 6 (by norm_num) _), hst _ _ (readDec_fixed 6 (by norm_num) _)]
  rfl

theorem readDat_written {rd : ℚ → ℚ} {showD : ℚ → List Char} {stod : List Char → Outcome ℚ}
    {s : DatScan} (w : Writable showD s) (hts : stod (showD s.tstart) = .ok s.tstart)
    (hst : ∀ t q, readDec t = some q → stod t = .ok (rd q)) :
    readDat stod (datFile rd showD s) = .ok ⟨some s.tstart, some (rd (fixedVal 6 s.tsamp)),
      some (rd (fixedVal 6 (rd (s.foff * 10 ^ 6)))), []⟩ := by
  have hc (c : Char) (t : List Char) (hc : notSpace c = true) (h1 : c ≠ 'M') (h2 : c ≠ 'D')
      (d : DatRead) := readLine_comment stod d (t := t) hc h1 h2
  unfold readDat
  rw [datFile_lines w, readLines_append]
  have hh (d : DatRead) : readLines stod d (datHeader rd showD s) = .ok ⟨some s.tstart,
      some (rd (fixedVal 6 s.tsamp)), some (rd (fixedVal 6 (rd (s.foff * 10 ^ 6)))), d.hits⟩ := by
    unfold datHeader
    simp only [readLines]
    have e1 (d : DatRead) : readLine stod d ruler = .ok d :=
      hc '-' _ (by decide) (by decide) (by decide) d
    have e2 (d : DatRead) (t : List Char) : readLine stod d ("# File ID: ".toList ++ t) = .ok d :=
      hc 'F' _ (by decide) (by decide) (by decide) d
    have e3 (d : DatRead) (t : List Char) : readLine stod d ("# Source:".toList ++ t) = .ok d :=
      hc 'S' _ (by decide) (by decide) (by decide) d
    have e4 (d : DatRead) : readLine stod d "# --------------------------".toList = .ok d :=
      hc '-' _ (by decide) (by decide) (by decide) d
    have e5 (d : DatRead) : readLine stod d ("# ".toList ++ joinTab datColumns) = .ok d :=
      hc 'T' _ (by decide) (by decide) (by decide) d
    rw [e1, Outcome.bind_ok, e2, Outcome.bind_ok, e1, Outcome.bind_ok, e3, Outcome.bind_ok,
      readLine_coord w hts, Outcome.bind_ok, readLine_step hst, Outcome.bind_ok, e4, Outcome.bind_ok,
      e5, Outcome.bind_ok, e4, Outcome.bind_ok]
    rfl
  rw [hh, Outcome.bind_ok, readLines_rows]

/-! ## C90 -/

/-- **C90 (partial).** The start time of a written scan is read back exactly and the sampling time
to half a microsecond. Missing: the hits and the channel width, see below. -/
theorem C90_read_back_partial {rd : ℚ → ℚ} {u : ℚ} (hr : RelErr rd u) (hu : 0 ≤ u)
    {showD : ℚ → List Char} {stod : List Char → Outcome ℚ} {s : DatScan} (w : Writable showD s)
    (hts : stod (showD s.tstart) = .ok s.tstart)
    (hst : ∀ t q, readDec t = some q → stod t = .ok (rd q)) :
    ∃ d, readDat stod (datFile rd showD s) = .ok d ∧ d.tstart = some s.tstart ∧
      ∃ t, d.tsamp = some t ∧
        |t - s.tsamp| ≤ 1 / (2 * 10 ^ 6) + u * (|s.tsamp| + 1 / (2 * 10 ^ 6)) := by
  refine ⟨_, readDat_written w hts hst, rfl, _, rfl, ?_⟩
  have h1 := fixedVal_err 6 s.tsamp
  have h2 := hr (fixedVal 6 s.tsamp)
  generalize fixedVal 6 s.tsamp = x at *
  generalize rd x = y at *
  have h3 := abs_add_le (y - x) (x - s.tsamp)
  rw [show y - x + (x - s.tsamp) = y - s.tsamp by ring] at h3
  have h4 := abs_sub_abs_le_abs_sub x s.tsamp
  have h5 : u * |x| ≤ u * (|s.tsamp| + 1 / (2 * 10 ^ 6)) :=
    mul_le_mul_of_nonneg_left (by linarith) hu
  linarith

/-- **C90 is violated: the hits.** The reader returns no hit from any text at all, -/
theorem C90_hits_never_read {stod : List Char → Outcome ℚ} {text : List Char} {d : DatRead}
    (h : readDat stod text = .ok d) : d.hits = [] := by
  have step (d d' : DatRead) (l : List Char) (h : readLine stod d l = .ok d') :
      d'.hits = d.hits := by
    unfold readLine at h
    split at h
    · rename_i m _
      cases h1 : stod (group 1 m) <;> rw [h1] at h <;> cases h
      rfl
    · split at h
      · rename_i m _
        cases h1 : stod (group 1 m) <;> rw [h1] at h
        · cases h2 : stod (group 2 m) <;> rw [h2] at h <;> cases h
          rfl
        · cases h
        · cases h
      · split at h
        · rename_i m _
          cases h1 : stod (group 2 m) <;> rw [h1] at h
          · cases h2 : stod (group 3 m) <;> rw [h2] at h
            · cases h3 : stod (group 7 m) <;> rw [h3] at h <;> cases h
              rfl
            · cases h
            · cases h
          · cases h
          · cases h
        · cases h
          rfl
  have all (ls : List (List Char)) (d d' : DatRead) (h : readLines stod d ls = .ok d') :
      d'.hits = d.hits := by
    induction ls generalizing d with
    | nil => cases h; rfl
    | cons l ls ih =>
      rw [readLines] at h
      cases hl : readLine stod d l <;> rw [hl] at h
      · rw [ih _ h, step _ _ _ hl]
      · cases h
      · cases h
  exact all _ _ _ h

/-- and no row of a written file is even recognised as a row. -/
theorem C90_rows_not_recognised {rd : ℚ → ℚ} {showD : ℚ → List Char} {s : DatScan}
    (w : Writable showD s) (i : Nat) (hi : i < s.hits.length) :
    ∃ row, (getLines (datFile rd showD s))[9 + i]? = some row ∧ matchAt dataPattern row = none := by
  rw [datFile_lines w]
  refine ⟨joinTab (datFields rd (1 + i) (s.hits[i])), ?_, row_no_match _ _ _⟩
  rw [List.getElem?_append_right (by simp [datHeader])]
  rw [show (9 + i - (datHeader rd showD s).length) = i by simp [datHeader], datRows_get,
    List.getElem?_eq_getElem hi]
  rfl

/-- **C90 is violated: the channel width.** It is written in hertz and read as if it were in
megahertz, so unless it is below a microhertz the value read is a different one. -/
theorem C90_channel_width_unit {rd : ℚ → ℚ} {u : ℚ} (hr : RelErr rd u) (hu : 0 ≤ u)
    (hu1 : u ≤ 1 / 100) {showD : ℚ → List Char} {stod : List Char → Outcome ℚ} {s : DatScan}
    (w : Writable showD s) (hts : stod (showD s.tstart) = .ok s.tstart)
    (hst : ∀ t q, readDec t = some q → stod t = .ok (rd q)) :
    ∃ d f, readDat stod (datFile rd showD s) = .ok d ∧ d.foff = some f ∧
      |f - 10 ^ 6 * s.foff| ≤ 1 / 10 ^ 6 + 3 * u * |10 ^ 6 * s.foff| ∧
      (1 / 10 ^ 12 ≤ |s.foff| → f ≠ s.foff) := by
  refine ⟨_, _, readDat_written w hts hst, rfl, ?_, ?_⟩
  all_goals
    have h1 := hr (s.foff * 10 ^ 6)
    have h2 := fixedVal_err 6 (rd (s.foff * 10 ^ 6))
    have h3 := hr (fixedVal 6 (rd (s.foff * 10 ^ 6)))
    rw [mul_comm s.foff] at *
    have hF : |10 ^ 6 * s.foff| = 10 ^ 6 * |s.foff| := by
      rw [abs_mul, abs_of_pos (by positivity : (0 : ℚ) < 10 ^ 6)]
    generalize hFe : 10 ^ 6 * s.foff = F at *
    generalize fixedVal 6 (rd F) = x at *
    generalize rd x = f at *
    generalize rd F = y at *
    norm_num at h2
    have a1 := abs_sub_abs_le_abs_sub y F
    have a2 := abs_sub_abs_le_abs_sub x y
    have p : 0 ≤ u * |F| := mul_nonneg hu (abs_nonneg _)
    have hx : |x| ≤ |F| + u * |F| + 1 / 2000000 := by linarith
    have hux : u * |x| ≤ u * (|F| + u * |F| + 1 / 2000000) := mul_le_mul_of_nonneg_left hx hu
    have huu : u * (u * |F|) ≤ 1 / 100 * (u * |F|) := mul_le_mul_of_nonneg_right hu1 p
    have hff : |f - F| ≤ 1 / 10 ^ 6 + 3 * u * |F| := by
      have t1 := abs_add_le (f - x) (x - y + (y - F))
      have t2 := abs_add_le (x - y) (y - F)
      rw [show f - x + (x - y + (y - F)) = f - F by ring] at t1
      norm_num
      nlinarith
  · exact hff
  · intro hs hfe
    have hF1 : 1 / 10 ^ 6 ≤ |F| := by
      rw [hF]
      calc (1 : ℚ) / 10 ^ 6 = 10 ^ 6 * (1 / 10 ^ 12) := by norm_num
        _ ≤ 10 ^ 6 * |s.foff| := mul_le_mul_of_nonneg_left hs (by positivity)
    have hs2 : |s.foff| = |F| / 10 ^ 6 := by rw [hF]; field_simp
    have huF : u * |F| ≤ 1 / 100 * |F| := mul_le_mul_of_nonneg_right hu1 (abs_nonneg _)
    have hxl : |F| - 1 / 100 * |F| - 1 / 2000000 ≤ |x| := by
      have b1 := abs_sub_abs_le_abs_sub F y
      have b2 := abs_sub_abs_le_abs_sub y x
      rw [abs_sub_comm F y] at b1
      rw [abs_sub_comm y x] at b2
      linarith
    have b3 := abs_sub_abs_le_abs_sub x f
    rw [abs_sub_comm x f] at b3
    have hux2 : u * |x| ≤ 1 / 100 * |x| := mul_le_mul_of_nonneg_right hu1 (abs_nonneg _)
    have hfl : 99 / 100 * |x| ≤ |f| := by linarith
    rw [hfe, hs2] at hfl
    norm_num at hfl hF1
    linarith

end Bliss.File
