import Verif.Base
import Verif.Hit.Model
import Verif.File.Text

/-!
# `.dat` files

The writer and the reader of `bliss/file_types/dat_file.cpp`. Numbers are rationals (finite doubles
and floats); every double operation is followed by the rounding `rd`.
-/

namespace Bliss.File

open Bliss.Hit Bliss.Float

/-- `static_cast<int>` of a double in the range of `int`. -/
def trunc (x : ℚ) : Int := if x < 0 then -⌊-x⌋ else ⌊x⌋

/-- fmt `{:02}` of an `int`. -/
def pad2 (n : Int) : List Char :=
  if n < 0 then '-' :: padLeft 1 '0' (natStr n.natAbs) else padLeft 2 '0' (natStr n.natAbs)

/-- fmt `{:0w.pf}`: the zeros come after the sign. -/
def padFixed (w p : Nat) (x : ℚ) : List Char :=
  if x < 0 then '-' :: padLeft (w - 1) '0' (fixedStr p (-x)) else padLeft w '0' (fixedStr p x)

/-- `format_archours_to_sexagesimal` (`dat_file.cpp:21-30`). -/
def raStr (rd : ℚ → ℚ) (raj : ℚ) : List Char :=
  let q := rd (rd (raj * 15) / 15)
  let hours := trunc q
  let part := rd (rd (q - hours) * 60)
  let minutes := trunc part
  let seconds := rd (rd (part - minutes) * 60)
  pad2 hours ++ 'h' :: pad2 minutes ++ 'm' :: padFixed 6 3 seconds ++ ['s']

/-- `format_degrees_to_sexagesimal` (`dat_file.cpp:37-44`). -/
def decStr (rd : ℚ → ℚ) (dej : ℚ) : List Char :=
  let degrees := trunc dej
  let part := rd (rd (|dej| - |(degrees : ℚ)|) * 60)
  let minutes := trunc part
  let seconds := rd (rd (part - minutes) * 60)
  (if 0 ≤ dej then '+' else '-') :: pad2 |degrees| ++ 'd' :: pad2 minutes ++
    'm' :: padFixed 5 2 seconds ++ ['s']

/-- fmt `{:wf}`: six decimals, at least `w` characters. -/
def widthFixed (w : Nat) (x : ℚ) : List Char := padLeft w ' ' (fixedStr 6 x)

/-- `end_freq` (`dat_file.cpp:53`); `1e6f` is exactly `10^6`. -/
def endFreq (rd : ℚ → ℚ) (h : Hit ℚ ℚ) : ℚ :=
  rd (h.startFreqMHz + rd (rd (h.duration * h.driftRate) / 10 ^ 6))

/-- `mid` (`dat_file.cpp:54`). -/
def midFreq (rd : ℚ → ℚ) (h : Hit ℚ ℚ) : ℚ := rd (rd (h.startFreqMHz + endFreq rd h) / 2)

/-- The twelve columns of a hit (`dat_file.cpp:55-67`). `k` is the number of the hit, an `int` that
does not wrap here. -/
def datFields (rd : ℚ → ℚ) (k : Nat) (h : Hit ℚ ℚ) : List (List Char) :=
  [padLeft 6 '0' (natStr k), widthFixed 4 h.driftRate, widthFixed 2 h.snr,
    widthFixed 6 (midFreq rd h), widthFixed 6 (midFreq rd h), intStr h.startFreqIndex,
    widthFixed 6 h.startFreqMHz, widthFixed 6 (endFreq rd h), widthFixed 1 0, widthFixed 6 0,
    intStr h.coarseChannel, intStr h.binwidth]

/-- Fields with a tab between each two. -/
def joinTab : List (List Char) → List Char
  | [] => []
  | [f] => f
  | f :: fs => f ++ '\t' :: joinTab fs

/-- The rows of the table, numbered from `k` (`dat_file.cpp:47-71`). -/
def datRows (rd : ℚ → ℚ) : Nat → List (Hit ℚ ℚ) → List (List Char)
  | _, [] => []
  | k, h :: hs => joinTab (datFields rd k h) :: datRows rd (k + 1) hs

/-- What `write_scan_hits_to_dat_file` takes from a scan; a missing path or source name is written
as `n/a` (`dat_file.cpp:92-108`). The other values are present (their accessors throw otherwise). -/
structure DatScan where
  hits : List (Hit ℚ ℚ)
  raj : ℚ
  dej : ℚ
  tstart : ℚ
  tsamp : ℚ
  foff : ℚ
  ntsteps : Int
  path : Option (List Char)
  source : Option (List Char)

/-- The names of the columns (`dat_file.cpp:122`). -/
def datColumns : List (List Char) :=
  ["Top_Hit_#".toList, "Drift_Rate".toList, "SNR".toList, "Uncorrected_Frequency".toList,
    "Corrected_Frequency".toList, "Index".toList, "freq_start".toList, "freq_end".toList,
    "SEFD_freq".toList, "Coarse_Channel_Number".toList, "Full_number_of_hits".toList]

/-- The line with the time, right ascension and declination (`dat_file.cpp:118`): an `s` follows the
text of `raStr`. `showD` is fmt `{}` of a double. -/
def coordLine (rd : ℚ → ℚ) (showD : ℚ → List Char) (s : DatScan) : List Char :=
  "# MJD: ".toList ++ showD s.tstart ++ "\tRA: ".toList ++ raStr rd s.raj ++ "s\tDEC:".toList ++
    decStr rd s.dej

/-- The line with the resolutions (`dat_file.cpp:119`). -/
def stepLine (rd : ℚ → ℚ) (s : DatScan) : List Char :=
  "# DELTAT: ".toList ++ widthFixed 6 s.tsamp ++ "\tDELTAF(Hz):  ".toList ++
    widthFixed 6 (rd (s.foff * 10 ^ 6)) ++ " max_drift_rate: n/a\tobs_length: ".toList ++
    widthFixed 2 (rd (s.ntsteps * s.tsamp))

/-- A ruler of the header. -/
def ruler : List Char := "# -------------------------- o --------------------------".toList

/-- The nine lines of the header (`dat_file.cpp:113-132`). -/
def datHeader (rd : ℚ → ℚ) (showD : ℚ → List Char) (s : DatScan) : List (List Char) :=
  [ruler, "# File ID: ".toList ++ s.path.getD "n/a".toList, ruler,
    "# Source:".toList ++ s.source.getD "n/a".toList, coordLine rd showD s, stepLine rd s,
    "# --------------------------".toList, "# ".toList ++ joinTab datColumns,
    "# --------------------------".toList]

/-- `write_scan_hits_to_dat_file` (`dat_file.cpp:86-136`): header and table, every line ended by a
newline. The writes themselves are taken to succeed; their results are not checked. -/
def datFile (rd : ℚ → ℚ) (showD : ℚ → List Char) (s : DatScan) : List Char :=
  (datHeader rd showD s ++ datRows rd 1 s.hits).flatMap (· ++ ['\n'])

/-! ## Reading -/

/-- A part of a regular expression: one character of a class, one or more of a class, or an optional
character. -/
inductive Atom
  | one (p : Char → Bool)
  | plus (p : Char → Bool)
  | opt (c : Char)

/-- A sequence of atoms; the number is that of the group it belongs to, 0 for none. The three
expressions of the reader are of this form. -/
abbrev Pattern := List (Atom × Nat)

/-- `std::regex_search` with an expression anchored by `^`, at the beginning of a line: greedy
matching with backtracking. The result is what every atom matched. -/
def matchAt : Pattern → List Char → Option (List (Nat × List Char))
  | [], _ => some []
  | (.one p, g) :: r, s =>
    match s with
    | [] => none
    | c :: t => if p c then (matchAt r t).map ((g, [c]) :: ·) else none
  | (.opt c, g) :: r, s =>
    match s with
    | [] => matchAt r s
    | x :: t =>
      if x = c then
        match (matchAt r t).map ((g, [x]) :: ·) with
        | some m => some m
        | none => matchAt r s
      else matchAt r s
  | (.plus p, g) :: r, s =>
    (List.range (s.takeWhile p).length).reverse.findSome? fun k =>
      (matchAt r (s.drop (k + 1))).map ((g, s.take (k + 1)) :: ·)

/-- The text of a group. -/
def group (g : Nat) (m : List (Nat × List Char)) : List Char :=
  (m.filter (·.1 = g)).flatMap (·.2)

/-- `\s` -/
def isSpace (c : Char) : Bool := c ∈ [' ', '\t', '\n', '\x0b', '\x0c', '\r']
/-- `\S` -/
def notSpace (c : Char) : Bool := !isSpace c
/-- `\d` -/
def isDigit (c : Char) : Bool := decide (IsDigit c)

/-- Literal text. -/
def lit (s : List Char) : Pattern := s.map fun c => (.one (· = c), 0)
/-- `\s+` -/
def spaces : Pattern := [(.plus isSpace, 0)]
/-- `(\d+)` -/
def intP (g : Nat) : Pattern := [(.plus isDigit, g)]
/-- `(\d+\.\d+)` -/
def decP (g : Nat) : Pattern := [(.plus isDigit, g), (.one (· = '.'), g), (.plus isDigit, g)]

/-- `header_regex` (`dat_file.cpp:145`). -/
def headerPattern : Pattern :=
  lit ['#'] ++ spaces ++ lit "MJD:".toList ++ spaces ++ [(.plus notSpace, 1)] ++ spaces ++
    lit "RA:".toList ++ spaces ++ [(.plus notSpace, 2)] ++ spaces ++ lit "DEC:".toList ++
    [(.plus notSpace, 3)]

/-- `tstart_regex` (`dat_file.cpp:146`). -/
def stepPattern : Pattern :=
  lit ['#'] ++ spaces ++ lit "DELTAT:".toList ++ spaces ++ [(.plus notSpace, 1)] ++ spaces ++
    lit "DELTAF(Hz):".toList ++ spaces ++ [(.plus notSpace, 2)] ++ spaces ++
    lit "max_drift_rate:".toList ++ spaces ++ [(.plus notSpace, 3)] ++ spaces ++
    lit "obs_length:".toList ++ spaces ++ [(.plus notSpace, 4)]

/-- `data_regex` (`dat_file.cpp:147-148`). -/
def dataPattern : Pattern :=
  intP 1 ++ spaces ++ ((.opt '-', 2) :: decP 2) ++ spaces ++ decP 3 ++ spaces ++ decP 4 ++ spaces ++
    decP 5 ++ spaces ++ intP 6 ++ spaces ++ decP 7 ++ spaces ++ decP 8 ++ spaces ++ decP 9 ++
    spaces ++ intP 10 ++ spaces ++ intP 11

/-- The scan that is read. -/
structure DatRead where
  tstart : Option ℚ
  tsamp : Option ℚ
  foff : Option ℚ
  hits : List (Hit ℚ ℚ)

/-- One line (`dat_file.cpp:151-183`). A row that matches is converted (which can throw) but then
dropped: nothing is added to the scan. `stoi` of the two integer columns is not modelled. -/
def readLine (stod : List Char → Outcome ℚ) (d : DatRead) (line : List Char) : Outcome DatRead :=
  match matchAt headerPattern line with
  | some m => do
    let t ← stod (group 1 m)
    pure { d with tstart := some t }
  | none =>
    match matchAt stepPattern line with
    | some m => do
      let t ← stod (group 1 m)
      let f ← stod (group 2 m)
      pure { d with tsamp := some t, foff := some f }
    | none =>
      match matchAt dataPattern line with
      | some m => do
        let _ ← stod (group 2 m)
        let _ ← stod (group 3 m)
        let _ ← stod (group 7 m)
        pure d
      | none => pure d

/-- The lines `std::getline` delivers: no line after the last newline. -/
def getLines (s : List Char) : List (List Char) :=
  let l := splitOn '\n' s
  if l.getLast? = some [] then l.dropLast else l

/-- Read every line. -/
def readLines (stod : List Char → Outcome ℚ) : DatRead → List (List Char) → Outcome DatRead
  | d, [] => pure d
  | d, l :: ls => do
    let d' ← readLine stod d l
    readLines stod d' ls

/-- `read_scan_hits_from_dat_file` (`dat_file.cpp:138-185`). -/
def readDat (stod : List Char → Outcome ℚ) (text : List Char) : Outcome DatRead :=
  readLines stod ⟨none, none, none, []⟩ (getLines text)

end Bliss.File
