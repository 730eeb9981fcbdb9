import Verif.Cadence.Serial
import Verif.File.DatProps

/-!
# Converting a hits file to a `.dat` file (C127)

`bliss_hits_to_dat`: the scan is read from a Cap'n Proto file and written as a `.dat` file.
-/

namespace Bliss.Cadence

open Bliss.Hit (Hit)
open Bliss.Scan Bliss.File

variable {F D Dev P : Type}

/-! ## Model -/

/-- How numbers are printed: the values of a `float` and of a `double` (which are taken to be
finite), the rounding of `double` arithmetic, and fmt `{}` of a `double`. -/
structure Printer (F D : Type) where
  valF : F → ℚ
  valD : D → ℚ
  round : ℚ → ℚ
  showD : ℚ → List Char

/-- The values of a hit. -/
def Printer.hit (p : Printer F D) (h : Hit F D) : Hit ℚ ℚ :=
  { startFreqIndex := h.startFreqIndex, startFreqMHz := p.valD h.startFreqMHz
    startTime := p.valD h.startTime, duration := p.valD h.duration, rateIndex := h.rateIndex
    driftRate := p.valD h.driftRate, power := p.valD h.power, timeSpan := h.timeSpan
    snr := p.valF h.snr, bandwidth := p.valF h.bandwidth, binwidth := h.binwidth, rfi := h.rfi
    coarseChannel := h.coarseChannel }

/-- `scan::get_file_path` (`scan.cpp:308-314`); `path` is that of the file the scan was opened
from. -/
def filePath (path : List Char) (s : Scan F D Dev P) : List Char :=
  match s.file with
  | some _ => path
  | none => "n/a".toList

/-- What `write_scan_hits_to_dat_file` prints (`dat_file.cpp:86-136`): the hits, the right ascension
and the declination are asked for first and may throw. -/
def datText (o : DOps D) (devOk : Dev → Bool) (p : Printer F D) (path : List Char)
    (s : Scan F D Dev P) : Outcome (List Char) := do
  let hs ← (hits o devOk s).2
  let ra ← value s.hdr.srcRaj
  let dec ← value s.hdr.srcDej
  pure (datFile p.round p.showD
    { hits := hs.map p.hit, raj := p.valD ra, dej := p.valD dec, tstart := p.valD s.hdr.tstart
      tsamp := p.valD s.hdr.tsamp, foff := p.valD s.hdr.foff, ntsteps := s.ntsteps
      path := some (filePath path s), source := some s.hdr.sourceName.toList })

/-- `std::filesystem::path::filename`: what follows the last slash. -/
def fileName (path : List Char) : List Char := (path.reverse.takeWhile (· ≠ '/')).reverse

/-- `path::replace_extension(".")` on a file name, without the dot: the name up to its last dot. A
name without a dot, a name whose only dot is the first character, `.` and `..` have no
extension. -/
def stem (name : List Char) : List Char :=
  if name = ".".toList ∨ name = "..".toList then name
  else
    match name.reverse.dropWhile (· ≠ '.') with
    | [] => name
    | [_] => name
    | _ :: rest => rest.reverse

/-- The default output (`bliss_hits_to_dat.cpp:50-53`). -/
def datName (input : List Char) : List Char := stem (fileName input) ++ ".dat".toList

/-- What the program does. -/
inductive Report (F D : Type)
  /-- the manual is printed -/
  | manual
  /-- the hits are listed -/
  | listed (hs : List (Hit F D))
  /-- a file is written -/
  | wrote (name text : List Char)

/-- `bliss_hits_to_dat` (`bliss_hits_to_dat.cpp:25-67`). `parsed` says that the arguments were
understood. `disk` gives the contents of the files that exist; a file that cannot be opened is
reported like one that cannot be read. The text that is listed for a hit is not modelled. -/
def hitsToDat (o : DOps D) (devOk : Dev → Bool) (C : Conv F D) (j : Junk) (noData : P) (cpu : Dev)
    (fr : Framing (ScanMsg F D)) (p : Printer F D) (disk : List Char → Option (List UInt8))
    (parsed help : Bool) (input output : List Char) : Outcome (Report F D) :=
  if input = [] ∨ help = true ∨ parsed = false then .ok .manual
  else do
    let out := if output = [] then datName input else output
    let s ← (match disk input with
      | none => .throws .runtimeError
      | some bytes => readFile fr (ofScanMsg o C j noData cpu) bytes : Outcome (Scan F D Dev P))
    let hs ← (hits o devOk s).2
    if out = "-".toList ∨ out = "stdout".toList then pure (.listed hs)
    else do
      let text ← datText o devOk p [] s
      pure (.wrote out text)

/-! ## Specification -/

/-- All hits of a scan whose channel `i` has the hits `hs i`. -/
def allHits (s : Scan F D Dev P) (hs : Int → List (Hit F D)) : List (Hit F D) :=
  (List.range s.num.toNat).flatMap fun (i : Nat) => hs i

/-- Line `i` of a text. -/
def line (i : Nat) (text : List Char) : List Char := (getLines text).getD i []

/-! ## The converted text -/

theorem hits_ok (o : DOps D) (devOk : Dev → Bool) (C : Conv F D) (s : Scan F D Dev P)
    (ch : Int → Channel F D Dev P) (hs : Int → List (Hit F D))
    (h : ScanStorable o devOk C s ch hs) : (hits o devOk s).2 = .ok (allHits s hs) := by
  rw [C33_scan_hits_partial o devOk s ch h.reads
    (fun i a b => Or.inl ⟨_, (h.channels i a b).hits⟩)]
  unfold allHits
  congr 1
  apply List.flatMap_congr
  intro i hi
  have hi : i < s.num.toNat := List.mem_range.1 hi
  unfold contribution
  rw [(h.channels i (by omega) (by omega)).hits]

/-- The parts of the file that depend on the scan alone. -/
def datScan (p : Printer F D) (s : Scan F D Dev P) (path : List Char) (ra dec : D)
    (hs : List (Hit F D)) : DatScan :=
  { hits := hs.map p.hit, raj := p.valD ra, dej := p.valD dec, tstart := p.valD s.hdr.tstart
    tsamp := p.valD s.hdr.tsamp, foff := p.valD s.hdr.foff, ntsteps := s.ntsteps
    path := some path, source := some s.hdr.sourceName.toList }

theorem datText_ok (o : DOps D) (devOk : Dev → Bool) (p : Printer F D) (path : List Char)
    (s : Scan F D Dev P) (hs : List (Hit F D)) (ra dec : D) (h1 : (hits o devOk s).2 = .ok hs)
    (h2 : s.hdr.srcRaj = some ra) (h3 : s.hdr.srcDej = some dec) :
    datText o devOk p path s = .ok (datFile p.round p.showD (datScan p s (filePath path s) ra dec hs)) := by
  unfold datText
  simp only [h1, h2, h3, value, Outcome.bind_ok, Outcome.pure_eq, datScan]

theorem ofScanMsg_file {o : DOps D} {C : Conv F D} {j : Junk} {noData : P} {cpu : Dev}
    {m : ScanMsg F D} {s : Scan F D Dev P} (h : ofScanMsg o C j noData cpu m = .ok s) :
    s.file = none := by
  unfold ofScanMsg at h
  cases hm : mapAll (ofChannelMsg o C noData cpu) m.channels with
  | throws e => rw [hm] at h; cases h
  | ub => rw [hm] at h; cases h
  | ok cs =>
    rw [hm] at h
    simp only [Outcome.bind_ok] at h
    cases cs with
    | nil => cases h
    | cons c rest =>
      simp only [ofChannels, Outcome.bind_ok, Outcome.pure_eq, Outcome.ok.injEq] at h
      subst h
      rfl

/-- The conversion as a whole: it writes the `.dat` text of the hits as they come back from the
file. -/
theorem converted (o : DOps D) (devOk : Dev → Bool) {C : Conv F D} (hC : C.Lawful) (j : Junk)
    (noData : P) (cpu : Dev) (hcpu : devOk cpu = true) (fr : Framing (ScanMsg F D))
    (p : Printer F D) (disk : List Char → Option (List UInt8)) (before : List UInt8)
    (input output : List Char) (s : Scan F D Dev P) (ch : Int → Channel F D Dev P)
    (hs : Int → List (Hit F D)) (h : ScanStorable o devOk C s ch hs)
    (hfr : fr.LawfulOn fun m => toScanMsg o devOk C s = .ok m)
    (hdisk : disk input = some (writeFile fr (toScanMsg o devOk C s) before).1)
    (hin : input ≠ []) (out : List Char) (hout : out = if output = [] then datName input else output)
    (hfile : out ≠ "-".toList ∧ out ≠ "stdout".toList) (hsteps : (ch 0).ntsteps = s.ntsteps)
    (ra dec : D) (hra : s.hdr.srcRaj = some ra) (hdec : s.hdr.srcDej = some dec) :
    hitsToDat o devOk C j noData cpu fr p disk true false input output =
      .ok (.wrote out (datFile p.round p.showD
        (datScan p s "n/a".toList ra dec ((allHits s hs).map (stored C))))) := by
  obtain ⟨m, s', h1, h2, h3⟩ := C38_scan_partial o devOk hC.int j noData cpu hcpu s ch hs h
  have hd := hfr.decode m h1 []
  rw [List.append_nil] at hd
  have hall : (List.range s.num.toNat).flatMap (fun (i : Nat) => (hs i).map (stored C)) =
      (allHits s hs).map (stored C) := by
    unfold allHits
    rw [List.map_flatMap]
  have hh := h3.hits
  rw [hall] at hh
  have ht := datText_ok o devOk p [] s' _ ra dec hh (h3.ra.trans hra) (h3.dec.trans hdec)
  have hp : filePath [] s' = "n/a".toList := by
    unfold filePath
    rw [ofScanMsg_file h2]
  have hsc : datScan p s' (filePath [] s') ra dec ((allHits s hs).map (stored C)) =
      datScan p s "n/a".toList ra dec ((allHits s hs).map (stored C)) := by
    unfold datScan
    rw [hp, h3.tstart, h3.tsamp, h3.foff, h3.ntsteps, hsteps, h3.name]
  rw [hsc] at ht
  unfold hitsToDat
  rw [if_neg (by simp [hin]), hdisk, h1]
  simp only [writeFile, readFile, hd, h2, Outcome.bind_ok, hh, ← hout]
  rw [if_neg (by rintro (e | e); exacts [hfile.1 e, hfile.2 e]), ht]
  rfl

/-! ## C127 -/

/-- A hit whose row in a `.dat` file is not changed by a trip through a hits file: the index fits 32
bits and the duration fits a `float`. -/
structure RowStorable (C : Conv F D) (h : Hit F D) : Prop where
  index : Fits32 h.startFreqIndex
  duration : C.Narrow h.duration

theorem fields_stored {C : Conv F D} (p : Printer F D) (k : Nat) (h : Hit F D)
    (hr : RowStorable C h) :
    datFields p.round k (p.hit (stored C h)) =
      (datFields p.round k (p.hit h)).set 10 (intStr 0) := by
  have e1 : wrap32 h.startFreqIndex = h.startFreqIndex := (wrap32_eq_iff _).2 hr.index
  have e2 : C.toD (C.toF h.duration) = h.duration := hr.duration
  unfold datFields stored Printer.hit
  simp only [e1, e2]
  rfl

/-- The situation: a scan with the hits `hs i` in channel `i` was written to the hits file `input`,
and the file is converted to the file `output`. The texts of the scan can be written. -/
structure Conversion (o : DOps D) (devOk : Dev → Bool) (C : Conv F D) (cpu : Dev)
    (fr : Framing (ScanMsg F D)) (p : Printer F D) (path : List Char)
    (disk : List Char → Option (List UInt8)) (input output : List Char) (s : Scan F D Dev P)
    (hs : Int → List (Hit F D)) : Prop where
  lawful : C.Lawful
  usable : devOk cpu = true
  channels : ∃ ch, ScanStorable o devOk C s ch hs ∧ (ch 0).ntsteps = s.ntsteps
  framing : fr.LawfulOn fun m => toScanMsg o devOk C s = .ok m
  written : ∃ before, disk input = some (writeFile fr (toScanMsg o devOk C s) before).1
  input : input ≠ []
  output : output ≠ [] ∧ output ≠ "-".toList ∧ output ≠ "stdout".toList
  rows : ∀ x ∈ allHits s hs, RowStorable C x
  path : '\n' ∉ filePath path s
  source : '\n' ∉ s.hdr.sourceName.toList
  tstart : Word (p.showD (p.valD s.hdr.tstart)) ∧ p.showD (p.valD s.hdr.tstart) ≠ []

/-- **C127 (partial): the table.** Write a scan to a hits file and convert the file: compared to
writing the scan directly as a `.dat` file, the table has the same rows in the same order, and every
row has the same entries in all columns but one. The header is the same but for the line with the
name of the file. Missing: the coarse channel, which is 0 in every converted row
(`C127_channel_lost`), and the name of the file, which is not known any more. -/
theorem C127_table_partial (o : DOps D) (devOk : Dev → Bool) {C : Conv F D} (j : Junk)
    (noData : P) (cpu : Dev) (fr : Framing (ScanMsg F D)) (p : Printer F D) (path : List Char)
    (disk : List Char → Option (List UInt8)) (input output : List Char) (s : Scan F D Dev P)
    (hs : Int → List (Hit F D)) (h : Conversion o devOk C cpu fr p path disk input output s hs) :
    ∃ text direct,
      hitsToDat o devOk C j noData cpu fr p disk true false input output =
        .ok (.wrote output text) ∧
      datText o devOk p path s = .ok direct ∧
      (getLines text).length = 9 + (allHits s hs).length ∧
      (getLines direct).length = 9 + (allHits s hs).length ∧
      (∀ i, i < 9 → i ≠ 1 → line i text = line i direct) ∧
      line 1 text = "# File ID: n/a".toList ∧
      ∀ i x, (allHits s hs)[i]? = some x →
        (splitOn '\t' (line (9 + i) text)).length = 12 ∧
        (splitOn '\t' (line (9 + i) direct)).length = 12 ∧
        (∀ c, c ≠ 10 → column c (line (9 + i) text) = column c (line (9 + i) direct)) ∧
        readInt (column 10 (line (9 + i) text)) = some 0 ∧
        readInt (column 10 (line (9 + i) direct)) = some x.coarseChannel := by
  obtain ⟨hC, hcpu, ⟨ch, h, hsteps⟩, hfr, ⟨before, hdisk⟩, hin, hout, hrow, wp, ws, wt⟩ := h
  obtain ⟨dec, ra, tid, g1, g2, g3, g4⟩ := toMd_ok (fch1 := s.fch1) h.md
  have hc := converted o devOk hC j noData cpu hcpu fr p disk before input output s ch hs h hfr
    hdisk hin output (by rw [if_neg hout.1]) hout.2 hsteps ra dec g2 g1
  have hd := datText_ok o devOk p path s _ ra dec (hits_ok o devOk C s ch hs h) g2 g1
  have w : Writable p.showD (datScan p s (filePath path s) ra dec (allHits s hs)) := ⟨wp, ws, wt⟩
  have w' : Writable p.showD
      (datScan p s "n/a".toList ra dec ((allHits s hs).map (stored C))) :=
    ⟨by simp only [datScan, Option.getD_some]; decide, w.source, w.tstart⟩
  refine ⟨_, _, hc, hd, ?_, ?_, ?_, ?_, ?_⟩
  · rw [datFile_lines w']
    simp [datRows_length, datHeader, datScan]; omega
  · rw [datFile_lines w]
    simp [datRows_length, datHeader, datScan]; omega
  · intro i hi h1
    unfold line
    rw [datFile_lines w, datFile_lines w', List.getD_eq_getElem?_getD, List.getD_eq_getElem?_getD,
      List.getElem?_append_left (by simp [datHeader]; omega),
      List.getElem?_append_left (by simp [datHeader]; omega)]
    obtain rfl | rfl | rfl | rfl | rfl | rfl | rfl | rfl : i = 0 ∨ i = 2 ∨ i = 3 ∨ i = 4 ∨ i = 5 ∨
      i = 6 ∨ i = 7 ∨ i = 8 := by omega
    all_goals rfl
  · unfold line
    rw [datFile_lines w', List.getD_eq_getElem?_getD, List.getElem?_append_left (by simp [datHeader])]
    rfl
  · intro i x hx
    have e1 : line (9 + i) (datFile p.round p.showD
        (datScan p s "n/a".toList ra dec ((allHits s hs).map (stored C)))) =
        joinTab (datFields p.round (1 + i) (p.hit (stored C x))) := by
      unfold line
      rw [datFile_lines w', List.getD_eq_getElem?_getD,
        List.getElem?_append_right (by simp [datHeader]),
        show 9 + i - (datHeader p.round p.showD _).length = i by simp [datHeader], datRows_get]
      simp [datScan, hx]
    have e2 : line (9 + i) (datFile p.round p.showD
        (datScan p s (filePath path s) ra dec (allHits s hs))) =
        joinTab (datFields p.round (1 + i) (p.hit x)) := by
      unfold line
      rw [datFile_lines w, List.getD_eq_getElem?_getD,
        List.getElem?_append_right (by simp [datHeader]),
        show 9 + i - (datHeader p.round p.showD _).length = i by simp [datHeader], datRows_get]
      simp [datScan, hx]
    rw [e1, e2]
    unfold column
    rw [row_columns, row_columns, fields_stored p _ x (hrow x (List.mem_of_getElem? hx))]
    refine ⟨by simp [datFields], by simp [datFields], ?_, ?_, ?_⟩
    · intro c hc
      rw [List.getD_eq_getElem?_getD, List.getD_eq_getElem?_getD, List.getElem?_set_ne (Ne.symm hc)]
    · simp only [datFields, List.set_cons_succ, List.set_cons_zero, List.getD_cons_succ,
        List.getD_cons_zero]
      exact readInt_intStr 0
    · simp only [datFields, List.getD_cons_succ, List.getD_cons_zero]
      exact readInt_intStr _

/-- **C127 is violated.** As soon as one hit was not found in coarse channel 0, the converted file
is not the file that the scan would be written as: the row of the hit gives another channel. -/
theorem C127_channel_lost (o : DOps D) (devOk : Dev → Bool) {C : Conv F D} (j : Junk)
    (noData : P) (cpu : Dev) (fr : Framing (ScanMsg F D)) (p : Printer F D) (path : List Char)
    (disk : List Char → Option (List UInt8)) (input output : List Char) (s : Scan F D Dev P)
    (hs : Int → List (Hit F D)) (h : Conversion o devOk C cpu fr p path disk input output s hs)
    (i : Nat) (x : Hit F D) (hi : (allHits s hs)[i]? = some x) (hx : x.coarseChannel ≠ 0) :
    ∃ text direct,
      hitsToDat o devOk C j noData cpu fr p disk true false input output =
        .ok (.wrote output text) ∧
      datText o devOk p path s = .ok direct ∧ line (9 + i) text ≠ line (9 + i) direct := by
  obtain ⟨text, direct, h1, h2, -, -, -, -, h7⟩ :=
    C127_table_partial o devOk j noData cpu fr p path disk input output s hs h
  refine ⟨text, direct, h1, h2, fun he => ?_⟩
  obtain ⟨-, -, -, a, b⟩ := h7 i x hi
  rw [he, b] at a
  exact hx (Option.some.inj a)

/-! ## The name of the output -/

theorem fileName_dir (dir name : List Char) (h : '/' ∉ name) :
    fileName (dir ++ '/' :: name) = name := by
  unfold fileName
  rw [List.reverse_append, List.reverse_cons, List.append_assoc, List.takeWhile_append_of_pos]
  · simp
  · intro c hc
    simp only [List.mem_reverse] at hc
    simp only [decide_eq_true_eq, ne_eq]
    rintro rfl
    exact h hc

theorem fileName_bare (name : List Char) (h : '/' ∉ name) : fileName name = name := by
  unfold fileName
  have := List.takeWhile_append_of_pos (p := fun c => decide (c ≠ '/')) (l₁ := name.reverse) (l₂ := [])
    (fun c hc => by
      simp only [List.mem_reverse] at hc
      simp only [decide_eq_true_eq, ne_eq]
      rintro rfl
      exact h hc)
  simp only [List.append_nil, List.takeWhile_nil] at this
  rw [this, List.reverse_reverse]

theorem stem_ext (base ext : List Char) (hb : base ≠ []) (he : ext ≠ []) (hd : '.' ∉ ext) :
    stem (base ++ '.' :: ext) = base := by
  have hne : ∀ t : List Char, t = ".".toList ∨ t = "..".toList → base ++ '.' :: ext ≠ t := by
    intro t ht e
    have hl : base ++ '.' :: ext = base ++ ['.'] ++ ext := by simp
    have hm : ∀ c ∈ t, c = '.' := by
      rcases ht with rfl | rfl <;> simp
    obtain ⟨c, hc⟩ := List.exists_mem_of_ne_nil ext he
    have : c = '.' := hm c (by rw [← e]; simp [hc])
    exact hd (this ▸ hc)
  unfold stem
  rw [if_neg (by rintro (e | e); exacts [hne _ (Or.inl rfl) e, hne _ (Or.inr rfl) e])]
  have : (base ++ '.' :: ext).reverse.dropWhile (· ≠ '.') = '.' :: base.reverse := by
    rw [List.reverse_append, List.reverse_cons, List.append_assoc, List.dropWhile_append_of_pos]
    · simp
    · intro c hc
      simp only [List.mem_reverse] at hc
      simp only [decide_eq_true_eq, ne_eq]
      rintro rfl
      exact hd hc
  rw [this]
  cases hr : base.reverse with
  | nil => exact absurd (List.reverse_eq_nil_iff.1 hr) hb
  | cons c rest =>
    simp only []
    rw [← hr, List.reverse_reverse]

/-- **C127, the name.** Without an output option the result is named after the input: the directory
is left out and the extension is replaced by `.dat`. -/
theorem C127_default_name (dir base ext : List Char) (hb : base ≠ []) (he : ext ≠ [])
    (h1 : '/' ∉ base) (h2 : '/' ∉ ext) (hd : '.' ∉ ext) :
    datName (dir ++ '/' :: (base ++ '.' :: ext)) = base ++ ".dat".toList ∧
      datName (base ++ '.' :: ext) = base ++ ".dat".toList := by
  have h : '/' ∉ base ++ '.' :: ext := by
    simp only [List.mem_append, List.mem_cons, not_or]
    exact ⟨h1, by decide, h2⟩
  unfold datName
  rw [fileName_dir _ _ h, fileName_bare _ h, stem_ext base ext hb he hd]
  exact ⟨rfl, rfl⟩

/-- Files of the same name in different directories are converted to the same file, so the second
conversion overwrites the first. -/
theorem C127_names_collide (dir dir' base ext : List Char) (hb : base ≠ []) (he : ext ≠ [])
    (h1 : '/' ∉ base) (h2 : '/' ∉ ext) (hd : '.' ∉ ext) :
    datName (dir ++ '/' :: (base ++ '.' :: ext)) = datName (dir' ++ '/' :: (base ++ '.' :: ext)) := by
  rw [(C127_default_name dir base ext hb he h1 h2 hd).1,
    (C127_default_name dir' base ext hb he h1 h2 hd).1]

/-- A hits file named `.dat` in the current directory is overwritten by its own conversion. -/
theorem C127_input_overwritten (base : List Char) (hb : base ≠ []) (h1 : '/' ∉ base) :
    datName (base ++ ".dat".toList) = base ++ ".dat".toList :=
  (C127_default_name [] base "dat".toList hb (by decide) h1 (by decide) (by decide)).2

/-! ## A concrete case -/

/-- Exact printing. -/
def exPrinter : Printer File.Float32 ℚ := ⟨fun x => x.1, id, id, fun q => intStr ⌊q⌋⟩

/-- The bytes of one message, for the example. -/
def oneMessage {M : Type} (m : M) : Framing M where
  encode := fun _ => [0]
  decode := fun b => match b with
    | [] => none
    | _ :: rest => some (m, rest)

theorem oneMessage_lawful {M : Type} (m : M) : (oneMessage m).LawfulOn fun m' => m' = m where
  nonempty := fun _ _ => by simp [oneMessage]
  decode := fun m' h rest => by subst h; rfl
  truncated := fun m' _ bytes hp hne => by
    have : bytes = [] := by
      rcases hp with ⟨t, ht⟩
      cases bytes with
      | nil => rfl
      | cons a b =>
        exfalso
        apply hne
        simp only [oneMessage, List.cons_append, List.cons.injEq, List.append_eq_nil_iff] at ht ⊢
        exact ⟨ht.1, ht.2.1⟩
    rw [this]; rfl
  empty := rfl

/-- The channels of the stored scan with the hit in channel `n` numbered as it should be. -/
def exNumbered (n : Int) : Channel File.Float32 ℚ Bool Unit :=
  { exChannel n with
    hits := some (.ok [{ File.exHit (14204057 * 2 ^ (-13 : ℤ)) 59000 with coarseChannel := n }]) }

/-- The scan of them. -/
def exScan : Scan File.Float32 ℚ Bool Unit :=
  { exStored with cache := fun k => if k < 2 then some (exNumbered k) else none }

theorem exScan_storable : ScanStorable ratOps id exConv exScan exNumbered
    (fun n => [{ File.exHit (14204057 * 2 ^ (-13 : ℤ)) 59000 with coarseChannel := n }]) := by
  refine ⟨by decide, exStored_storable.md, ?_, ?_, ?_⟩
  · intro i h0 hi
    have hi : i < 2 := hi
    simp [exScan, exStored, hi]
  · intro i h0 hi
    have hi : i < 2 := hi
    rw [read_view]
    unfold view base exScan exStored
    simp only [Int.add_zero]
    rw [if_neg (by omega), if_pos hi]
    rfl
  · intro i h0 hi
    refine ⟨(exStored_storable.channels i h0 hi).md, rfl, ?_⟩
    intro h hh
    rw [List.mem_singleton] at hh
    subst hh
    exact exHit_storable.2

theorem exConversion {m : ScanMsg File.Float32 ℚ} (h1 : toScanMsg ratOps id exConv exScan = .ok m) :
    Conversion ratOps id exConv true (oneMessage m) exPrinter "scan.h5".toList
      (fun _ => some [0]) "scan.capnp".toList "scan.dat".toList exScan
      (fun n => [{ File.exHit (14204057 * 2 ^ (-13 : ℤ)) 59000 with coarseChannel := n }]) where
  lawful := exConv_lawful
  usable := rfl
  channels := ⟨exNumbered, exScan_storable, rfl⟩
  framing := by
    have hl := oneMessage_lawful m
    have : (fun m' => toScanMsg ratOps id exConv exScan = .ok m') = fun m' => m' = m := by
      funext m'
      rw [h1]
      simp [eq_comm]
    rw [this]
    exact hl
  written := ⟨[], by rw [h1]; rfl⟩
  input := by decide
  output := by decide
  rows := by
    intro x hx
    unfold allHits at hx
    rw [List.mem_flatMap] at hx
    obtain ⟨n, _, hx⟩ := hx
    rw [List.mem_singleton.1 hx]
    exact ⟨exHit_storable.1.index, exHit_storable.1.duration⟩
  path := by simp only [filePath, exScan, exStored]; decide
  source := by simp only [exScan, exStored, exHeader]; decide
  tstart := by
    have h : ∀ q, exPrinter.showD q = intStr ⌊q⌋ := fun _ => rfl
    rw [h]
    exact ⟨word_int _, int_ne_nil _⟩

/-- Two channels with one hit each: the second row differs in the coarse channel and in nothing
else. -/
example : ∃ (m : ScanMsg File.Float32 ℚ) (text direct : List Char),
    toScanMsg ratOps id exConv exScan = .ok m ∧
    hitsToDat ratOps id exConv ⟨0, 0, 0, 0⟩ () true (oneMessage m) exPrinter
      (fun _ => some [0]) true false "scan.capnp".toList "scan.dat".toList =
      .ok (.wrote "scan.dat".toList text) ∧
    datText ratOps id exPrinter "scan.h5".toList exScan = .ok direct ∧
    (getLines text).length = 11 ∧ (getLines direct).length = 11 ∧
    line 1 text = "# File ID: n/a".toList ∧
    column 6 (line 10 text) = column 6 (line 10 direct) ∧
    readInt (column 10 (line 10 text)) = some 0 ∧
    readInt (column 10 (line 10 direct)) = some 1 := by
  obtain ⟨m, s', h1, -⟩ := C38_scan_partial ratOps id exConv_lawful.int ⟨0, 0, 0, 0⟩ () true rfl
    exScan exNumbered _ exScan_storable
  obtain ⟨text, direct, e1, e2, e3, e4, e5, e6, e7⟩ := C127_table_partial ratOps id
    ⟨0, 0, 0, 0⟩ () true (oneMessage m) exPrinter "scan.h5".toList (fun _ => some [0])
    "scan.capnp".toList "scan.dat".toList exScan _ (exConversion h1)
  obtain ⟨-, -, a, b, c⟩ := e7 1 _ rfl
  exact ⟨m, text, direct, h1, e1, e2, e3, e4, e6, a 6 (by decide), b, c⟩

end Bliss.Cadence
