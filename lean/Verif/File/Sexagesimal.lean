import Verif.File.DatRead

/-!
# Right ascension and declination in a `.dat` file

Specification: a text `HhMmSs` stands for `H + M/60 + S/3600`.
-/

namespace Bliss.File

open Bliss.Hit Bliss.Float

/-- `text` is `HuMmSs`: whole units, a letter, minutes, `m`, seconds, `s`. -/
structure Reads (text : List Char) (unit : Char) (H M : Nat) (S : ℚ) : Prop where
  ex : ∃ a b c, text = a ++ unit :: b ++ 'm' :: c ++ ['s'] ∧ readNat a = some H ∧
    readNat b = some M ∧ readDec c = some S

theorem readNat_pad2 (n : Nat) : readNat (pad2 n) = some n := by
  unfold pad2
  rw [if_neg (by omega), Int.natAbs_natCast]
  exact readNat_padLeft _ _

theorem readDec_padFixed (w p : Nat) (hp : 0 < p) (x : ℚ) (hx : 0 ≤ x) :
    readDec (padFixed w p x) = some (fixedVal p x) := by
  unfold padFixed fixedVal
  rw [if_neg (not_lt.2 hx), if_neg (not_lt.2 hx), one_mul]
  unfold fixedStr
  rw [if_neg (not_lt.2 hx)]
  simp only [List.nil_append]
  generalize (nearInt (|x| * 10 ^ p)).toNat = n
  have hpos : 0 < 10 ^ p := by positivity
  have e : padLeft w '0' (natStr (n / 10 ^ p) ++ '.' :: padLeft p '0' (natStr (n % 10 ^ p))) =
      padLeft (w - (natStr (n / 10 ^ p) ++ '.' :: padLeft p '0' (natStr (n % 10 ^ p))).length +
        (natStr (n / 10 ^ p)).length) '0' (natStr (n / 10 ^ p)) ++
        '.' :: padLeft p '0' (natStr (n % 10 ^ p)) := by
    conv_lhs => unfold padLeft
    conv_rhs => rw [padLeft]
    rw [Nat.add_sub_cancel, List.append_assoc]
    rfl
  rw [e]
  generalize w - (natStr (n / 10 ^ p) ++ '.' :: padLeft p '0' (natStr (n % 10 ^ p))).length +
        (natStr (n / 10 ^ p)).length = w'
  have hdig := padLeft_digit w' (n / 10 ^ p)
  have h := takeWhile_digits (t := padLeft p '0' (natStr (n % 10 ^ p))) hdig
  have hpos' : readPos (padLeft w' '0' (natStr (n / 10 ^ p)) ++
      '.' :: padLeft p '0' (natStr (n % 10 ^ p))) = some ((n : ℚ) / 10 ^ p) := by
    unfold readPos
    rw [h.2, h.1]
    simp only [readNat_padLeft, Option.bind_some, Option.map_some]
    rw [padLeft_length p _ hp (Nat.mod_lt _ hpos)]
    congr 1
    have e : (n : ℚ) = ((10 ^ p * (n / 10 ^ p) + n % 10 ^ p : Nat) : ℚ) := by
      rw [Nat.div_add_mod]
    rw [e]
    push_cast
    field_simp
  have hne : padLeft w' '0' (natStr (n / 10 ^ p)) ≠ [] := by simp [padLeft, natStr_ne_nil]
  obtain ⟨c, t, ec⟩ := List.exists_cons_of_ne_nil hne
  have hc : c ≠ '-' := isDigit_ne (hdig c (by rw [ec]; simp)) (by decide)
  rw [ec, List.cons_append] at hpos' ⊢
  unfold readDec
  split
  · rename_i heq
    rw [List.cons.injEq] at heq
    exact absurd heq.1 hc
  · exact hpos'

theorem RelErr.nonneg {rd : ℚ → ℚ} {u x : ℚ} (hr : RelErr rd u) (hu1 : u ≤ 1) (hx : 0 ≤ x) :
    0 ≤ rd x := by
  have := hr x
  rw [abs_of_nonneg hx] at this
  have h1 := (abs_le.1 this).1
  have h2 : u * x ≤ 1 * x := mul_le_mul_of_nonneg_right hu1 hx
  linarith

theorem trunc_nonneg {x : ℚ} (hx : 0 ≤ x) :
    ∃ n : Nat, trunc x = n ∧ (n : ℚ) ≤ x ∧ x < n + 1 := by
  unfold trunc
  rw [if_neg (not_lt.2 hx)]
  refine ⟨⌊x⌋.toNat, (Int.toNat_of_nonneg (Int.floor_nonneg.2 hx)).symm, ?_, ?_⟩
  · have : ((⌊x⌋.toNat : ℤ) : ℚ) = (⌊x⌋ : ℚ) := by
      rw [Int.toNat_of_nonneg (Int.floor_nonneg.2 hx)]
    rw [← Int.cast_natCast, this]
    exact Int.floor_le x
  · have : ((⌊x⌋.toNat : ℤ) : ℚ) = (⌊x⌋ : ℚ) := by
      rw [Int.toNat_of_nonneg (Int.floor_nonneg.2 hx)]
    rw [← Int.cast_natCast, this]
    exact Int.lt_floor_add_one x

/-- Minutes and seconds of a fraction of the unit. -/
theorem fraction_err {rd : ℚ → ℚ} {u : ℚ} (hu : 0 ≤ u) (hu1 : u ≤ 1 / 1000) (hr : RelErr rd u)
    {f : ℚ} (h0 : 0 ≤ f) (h1 : f < 1) :
    ∃ m : Nat, trunc (rd (rd f * 60)) = m ∧ m ≤ 60 ∧
      0 ≤ rd (rd (rd (rd f * 60) - m) * 60) ∧ rd (rd (rd (rd f * 60) - m) * 60) < 121 / 2 ∧
      |(m : ℚ) / 60 + rd (rd (rd (rd f * 60) - m) * 60) / 3600 - f| ≤ 4 * u ∧
      ((∀ x, rd x = x) → m < 60 ∧ rd (rd (rd (rd f * 60) - m) * 60) < 60) := by
  have hu1' : u ≤ 1 := by linarith
  have ha0 := RelErr.nonneg hr hu1' h0
  have ea := hr f
  rw [abs_of_nonneg h0] at ea
  have hid : (∀ x, rd x = x) → rd (rd f * 60) = f * 60 := fun h => by rw [h, h]
  generalize rd f = a at *
  have hp0 := RelErr.nonneg hr hu1' (show 0 ≤ a * 60 by positivity)
  have ep := hr (a * 60)
  rw [abs_of_nonneg (show 0 ≤ a * 60 by positivity)] at ep
  generalize rd (a * 60) = p at *
  obtain ⟨m, em, hm1, hm2⟩ := trunc_nonneg hp0
  refine ⟨m, em, ?_⟩
  have hb0 := RelErr.nonneg hr hu1' (sub_nonneg.2 hm1)
  have eb := hr (p - m)
  rw [abs_of_nonneg (sub_nonneg.2 hm1)] at eb
  have hid2 : (∀ x, rd x = x) → rd (rd (p - m) * 60) = (p - m) * 60 := fun h => by rw [h, h]
  generalize rd (p - m) = b at *
  have hs0 := RelErr.nonneg hr hu1' (show 0 ≤ b * 60 by positivity)
  have es := hr (b * 60)
  rw [abs_of_nonneg (show 0 ≤ b * 60 by positivity)] at es
  generalize rd (b * 60) = s at *
  rw [abs_le] at ea ep eb es
  have f1 : u * f ≤ u * 1 := mul_le_mul_of_nonneg_left h1.le hu
  have fa : a ≤ 1001 / 1000 := by linarith [ea.2]
  have f2 : u * (a * 60) ≤ u * (1001 / 1000 * 60) :=
    mul_le_mul_of_nonneg_left (by linarith) hu
  have hpm : p - m ≤ 1 := by linarith
  have f3 : u * (p - m) ≤ u * 1 := mul_le_mul_of_nonneg_left hpm hu
  have fb : b ≤ 1001 / 1000 := by linarith [eb.2]
  have f4 : u * (b * 60) ≤ u * (1001 / 1000 * 60) :=
    mul_le_mul_of_nonneg_left (by linarith) hu
  have hpu : p < 61 := by linarith [ep.2]
  refine ⟨?_, hs0, by linarith [es.2], ?_, ?_⟩
  · have : (m : ℚ) < 61 := by linarith
    have : m < 61 := by exact_mod_cast this
    omega
  · rw [abs_le]
    constructor
    · linarith [ea.1, ep.1, eb.1, es.1, ea.2, ep.2, eb.2, es.2]
    · linarith [ea.1, ep.1, eb.1, es.1, ea.2, ep.2, eb.2, es.2]
  · intro h
    have h2 := hid h
    have h3 := hid2 h
    constructor
    · have : (m : ℚ) < 60 := by linarith
      exact_mod_cast this
    · rw [h3]; linarith

theorem fixedVal_le {p : Nat} {x : ℚ} (hx : 0 ≤ x) {n : Nat} (h : x ≤ n) : fixedVal p x ≤ n := by
  have hp : (0 : ℚ) < 10 ^ p := by positivity
  unfold fixedVal
  rw [if_neg (not_lt.2 hx), one_mul, div_le_iff₀ hp, abs_of_nonneg hx]
  have hm := nearInt_mono (mul_le_mul_of_nonneg_right h hp.le)
  have e : (n : ℚ) * 10 ^ p = ((n * 10 ^ p : ℤ) : ℚ) := by push_cast; rfl
  rw [e, nearInt_int] at hm
  rw [e]
  have : ((nearInt (x * 10 ^ p)).toNat : ℤ) ≤ n * 10 ^ p := by
    have : (0 : ℤ) ≤ n * 10 ^ p := by positivity
    omega
  exact_mod_cast this

theorem fixedVal_nonneg {p : Nat} {x : ℚ} (hx : 0 ≤ x) : 0 ≤ fixedVal p x := by
  unfold fixedVal
  rw [if_neg (not_lt.2 hx), one_mul]
  positivity

/-- **C91 (partial).** The right ascension (in hours, not negative) is written as hours, minutes and
seconds that add up to it: to half a millisecond, and the rounding of seven double operations.
Missing: the seconds can be 60, see below. With double arithmetic the bound shown for the minutes is
60; with exact arithmetic it is 59. -/
theorem C91_right_ascension_partial {rd : ℚ → ℚ} {u : ℚ} (hu : 0 ≤ u) (hu1 : u ≤ 1 / 1000)
    (hr : RelErr rd u) {raj : ℚ} (h0 : 0 ≤ raj) :
    ∃ (H M : Nat) (S : ℚ), Reads (raStr rd raj) 'h' H M S ∧ M ≤ 60 ∧ 0 ≤ S ∧ S ≤ 61 ∧
      |(H : ℚ) + M / 60 + S / 3600 - raj| ≤ 1 / (2 * 10 ^ 3) / 3600 + u * (3 * raj + 4) ∧
      ((∀ x, rd x = x) → H ≤ raj ∧ raj < H + 1 ∧ M < 60 ∧ S ≤ 60) := by
  have hu1' : u ≤ 1 := by linarith
  unfold raStr
  have ht0 := RelErr.nonneg hr hu1' (show 0 ≤ raj * 15 by positivity)
  have et := hr (raj * 15)
  rw [abs_of_nonneg (show 0 ≤ raj * 15 by positivity)] at et
  have hid : (∀ x, rd x = x) → rd (rd (raj * 15) / 15) = raj := fun h => by
    rw [h, h]; field_simp
  generalize rd (raj * 15) = t at *
  have hq0 := RelErr.nonneg hr hu1' (show 0 ≤ t / 15 by positivity)
  have eq := hr (t / 15)
  rw [abs_of_nonneg (show 0 ≤ t / 15 by positivity)] at eq
  generalize rd (t / 15) = q at *
  obtain ⟨H, eH, hH1, hH2⟩ := trunc_nonneg hq0
  obtain ⟨M, eM, hM, hs0, hs1, herr, hex⟩ :=
    fraction_err hu hu1 hr (sub_nonneg.2 hH1) (show q - H < 1 by linarith)
  simp only [eH, eM, Int.cast_natCast]
  generalize rd (rd (rd (rd (q - ↑H) * 60) - ↑M) * 60) = s at *
  have hS := fixedVal_err 3 s
  refine ⟨H, M, fixedVal 3 s, ⟨_, _, _, rfl, readNat_pad2 _, readNat_pad2 _,
    readDec_padFixed 6 3 (by norm_num) s hs0⟩, hM, fixedVal_nonneg hs0, ?_, ?_, ?_⟩
  · exact_mod_cast fixedVal_le (p := 3) hs0 (n := 61) (by norm_num; linarith)
  · have hur : 0 ≤ u * raj := mul_nonneg hu h0
    have huu : u * (u * raj) ≤ 1 / 1000 * (u * raj) := mul_le_mul_of_nonneg_right hu1 hur
    rw [abs_le] at et eq herr hS ⊢
    have htu : u * (t / 15) ≤ u * (raj + u * raj) :=
      mul_le_mul_of_nonneg_left (by linarith [et.2]) hu
    norm_num at hS ⊢
    constructor
    · linarith [et.1, eq.1, herr.1, hS.1, et.2, eq.2, herr.2, hS.2]
    · linarith [et.1, eq.1, herr.1, hS.1, et.2, eq.2, herr.2, hS.2]
  · intro h
    have hq := hid h
    obtain ⟨g1, g2⟩ := hex h
    refine ⟨by rw [← hq]; exact hH1, by rw [← hq]; exact hH2, g1, ?_⟩
    exact_mod_cast fixedVal_le (p := 3) hs0 (n := 60) (by norm_num; linarith)

theorem abs_trunc (x : ℚ) : |trunc x| = trunc |x| := by
  unfold trunc
  rw [if_neg (not_lt.2 (abs_nonneg x))]
  by_cases hx : x < 0
  · rw [if_pos hx, abs_neg, abs_of_nonneg (Int.floor_nonneg.2 (by linarith)), abs_of_neg hx]
  · rw [if_neg hx, abs_of_nonneg (Int.floor_nonneg.2 (not_lt.1 hx)), abs_of_nonneg (not_lt.1 hx)]

/-- **C91 (partial).** The declination (in degrees) is written with its sign, also when its degrees
are zero, and then degrees, minutes and seconds that add up to its absolute value. Missing: the
seconds can be 60, see below. -/
theorem C91_declination_partial {rd : ℚ → ℚ} {u : ℚ} (hu : 0 ≤ u) (hu1 : u ≤ 1 / 1000)
    (hr : RelErr rd u) (dej : ℚ) :
    ∃ (sign : Char) (text : List Char) (D M : Nat) (S : ℚ), decStr rd dej = sign :: text ∧
      (sign = '+' ∧ 0 ≤ dej ∨ sign = '-' ∧ dej < 0) ∧ Reads text 'd' D M S ∧
      D ≤ |dej| ∧ |dej| < D + 1 ∧ M ≤ 60 ∧ 0 ≤ S ∧ S ≤ 61 ∧
      |(D : ℚ) + M / 60 + S / 3600 - abs dej| ≤ 1 / (2 * 10 ^ 2) / 3600 + 4 * u ∧
      ((∀ x, rd x = x) → M < 60 ∧ S ≤ 60) := by
  unfold decStr
  obtain ⟨D, eD, hD1, hD2⟩ := trunc_nonneg (abs_nonneg dej)
  have eD' : |trunc dej| = D := (abs_trunc dej).trans eD
  have eDq : |(trunc dej : ℚ)| = D := by
    rw [← Int.cast_abs, eD']
    simp
  obtain ⟨M, eM, hM, hs0, hs1, herr, hex⟩ :=
    fraction_err hu hu1 hr (sub_nonneg.2 hD1) (show |dej| - D < 1 by linarith)
  simp only [eDq, eD', eM, Int.cast_natCast]
  generalize rd (rd (rd (rd (|dej| - ↑D) * 60) - ↑M) * 60) = s at *
  have hS := fixedVal_err 2 s
  refine ⟨_, _, D, M, fixedVal 2 s, rfl, ?_, ⟨_, _, _, rfl, readNat_pad2 _, readNat_pad2 _,
    readDec_padFixed 5 2 (by norm_num) s hs0⟩, hD1, hD2, hM, fixedVal_nonneg hs0, ?_, ?_, ?_⟩
  · by_cases h : 0 ≤ dej
    · left; exact ⟨if_pos h, h⟩
    · right; exact ⟨if_neg h, not_le.1 h⟩
  · exact_mod_cast fixedVal_le (p := 2) hs0 (n := 61) (by norm_num; linarith)
  · generalize |dej| = x at *
    rw [abs_le] at herr hS ⊢
    norm_num at hS ⊢
    constructor
    · linarith [herr.1, hS.1, herr.2, hS.2]
    · linarith [herr.1, hS.1, herr.2, hS.2]
  · intro h
    obtain ⟨g1, g2⟩ := hex h
    exact ⟨g1, by exact_mod_cast fixedVal_le (p := 2) hs0 (n := 60) (by norm_num; linarith)⟩

/-- **C91 is violated.** Whenever less than half a millisecond is missing to a full minute, the
seconds are written as 60 (exact arithmetic): there is no carry into the minutes. -/
theorem C91_sixty_seconds (h m : Nat) (hm : m < 60) (s : ℚ) (h1 : 60 - 1 / 2000 ≤ s) (h2 : s < 60) :
    raStr id (h + m / 60 + s / 3600) = pad2 h ++ 'h' :: pad2 m ++ "m60.000s".toList := by
  have hmq : (m : ℚ) ≤ 59 := by
    have : m ≤ 59 := by omega
    exact_mod_cast this
  have hm0 : (0 : ℚ) ≤ m := Nat.cast_nonneg m
  have hh0 : (0 : ℚ) ≤ h := Nat.cast_nonneg h
  have tr (x : ℚ) (n : Nat) (a : (n : ℚ) ≤ x) (b : x < n + 1) : trunc x = n := by
    unfold trunc
    rw [if_neg (not_lt.2 ((Nat.cast_nonneg n).trans a)), Int.floor_eq_iff]
    exact ⟨by exact_mod_cast a, by exact_mod_cast b⟩
  unfold raStr
  simp only [id]
  rw [show (h + m / 60 + s / 3600 : ℚ) * 15 / 15 = h + m / 60 + s / 3600 by ring,
    tr (h + m / 60 + s / 3600) h (by linarith) (by linarith)]
  simp only [Int.cast_natCast]
  rw [show ((h : ℚ) + m / 60 + s / 3600 - h) * 60 = m + s / 60 by ring,
    tr (m + s / 60) m (by linarith) (by linarith)]
  simp only [Int.cast_natCast]
  rw [show ((m : ℚ) + s / 60 - m) * 60 = s by ring]
  have hn : nearInt (|s| * 10 ^ 3) = 60000 := by
    rw [abs_of_nonneg (by linarith)]
    have a := nearInt_mono (show (119999 / 2 : ℚ) ≤ s * 10 ^ 3 by norm_num; linarith)
    have b := nearInt_mono (show s * 10 ^ 3 ≤ ((60000 : ℤ) : ℚ) by norm_num; linarith)
    rw [nearInt_int] at b
    have c : nearInt (119999 / 2 : ℚ) = 60000 := by decide +kernel
    omega
  have hp : padFixed 6 3 s = "60.000".toList := by
    unfold padFixed fixedStr
    rw [if_neg (by linarith), if_neg (by linarith), hn]
    decide +kernel
  rw [hp]
  simp

/-- The same with the double arithmetic of the code, and for the declination. -/
theorem C91_sixty_seconds_double :
    raStr (rne 53) (11 / 2 - 1 / 2 ^ 30) = "05h29m60.000s".toList ∧
      decStr (rne 53) (-(11 / 2 - 1 / 2 ^ 30)) = "-05d29m60.00s".toList := by
  decide +kernel

/-- In the header an extra `s` follows the right ascension. -/
theorem C91_header_extra_s {rd : ℚ → ℚ} {showD : ℚ → List Char} {s : DatScan}
    (w : Writable showD s) :
    ∃ line, (getLines (datFile rd showD s))[4]? = some line ∧
      column 1 line = "RA: ".toList ++ raStr rd s.raj ++ ['s'] := by
  rw [datFile_lines w]
  refine ⟨coordLine rd showD s, by simp [datHeader], ?_⟩
  have h1 := w.tstart.1.notMem (c := '\t') (by decide)
  have h2 := (word_ra rd s.raj).notMem (c := '\t') (by decide)
  have e : coordLine rd showD s = ("# MJD: ".toList ++ showD s.tstart) ++ '\t' ::
      (("RA: ".toList ++ raStr rd s.raj ++ ['s']) ++ '\t' :: ("DEC:".toList ++ decStr rd s.dej)) := by
    unfold coordLine
    simp only [List.append_assoc]
    rfl
  rw [column, e, splitOn_cons, splitOn_cons]
  · rfl
  · simp only [List.mem_append, not_or]
    exact ⟨⟨by decide, h2⟩, by decide⟩
  · simp only [List.mem_append, not_or]
    exact ⟨by decide, h1⟩

/-! ## The hypotheses can be met -/

/-- A hit. -/
def exampleHit : Hit ℚ ℚ :=
  { startFreqIndex := 524288, startFreqMHz := 8419.297028, startTime := 0, duration := 300,
    rateIndex := -3, driftRate := -0.373, power := 4, timeSpan := 16, snr := 30.612, bandwidth := 3,
    binwidth := 2, rfi := [], coarseChannel := 28 }

/-- A scan with two hits. -/
def exampleScan : DatScan :=
  { hits := [exampleHit, { exampleHit with driftRate := 1.25 }], raj := 17.2112472,
    dej := 12.4037777, tstart := 57650.78209, tsamp := 18.253611, foff := -2.7939677e-6,
    ntsteps := 16, path := some "voyager.h5".toList, source := some "Voyager1".toList }

/-- Enough decimals for the example; `fmt` prints as many as needed. -/
def exampleShow (x : ℚ) : List Char := fixedStr 20 x

theorem example_writable : Writable exampleShow exampleScan :=
  ⟨by decide, by decide, word_fixed _ _, by simp [exampleShow, fixedStr]⟩

/-- `stod` for the example: exact decimal reading. -/
def exampleStod (t : List Char) : Outcome ℚ :=
  match readDec t with
  | some q => .ok q
  | none => .throws .invalidArgument

example : exampleStod (exampleShow exampleScan.tstart) = .ok exampleScan.tstart := by
  unfold exampleStod exampleShow
  rw [readDec_fixed 20 (by norm_num), fixedVal_exact 20 _ 5765078209000000000000000]
  norm_num [exampleScan]

example : ∀ t q, readDec t = some q → exampleStod t = .ok (id q) := by
  intro t q h
  simp [exampleStod, h]

example : RelErr id 0 := fun z => by simp

/-- The texts of the example. -/
example : (datRows id 1 exampleScan.hits).map String.ofList =
    ["000001\t-0.373000\t30.612000\t8419.296972\t8419.296972\t524288\t8419.297028\t8419.296916\t0.000000\t0.000000\t28\t2",
     "000002\t1.250000\t30.612000\t8419.297216\t8419.297216\t524288\t8419.297028\t8419.297403\t0.000000\t0.000000\t28\t2"] := by
  decide +kernel

example : stepLine id exampleScan = "# DELTAT: 18.253611\tDELTAF(Hz):  -2.793968 max_drift_rate: n/a\tobs_length: 292.057776".toList := by
  decide +kernel

end Bliss.File
