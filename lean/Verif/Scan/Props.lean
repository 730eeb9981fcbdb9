import Verif.Scan.Lemmas
import Verif.Float.Rounding
import Mathlib.Algebra.Order.Field.Rat
import Mathlib.Data.Rat.Floor
import Mathlib.Tactic.Ring
import Mathlib.Tactic.Linarith
import Mathlib.Tactic.FieldSimp

/-!
# Properties of scans (C28 – C34)
-/

namespace Bliss.Scan

open Bliss.Hit (Hit)

variable {F D Dev P : Type}

/-- The laws of exact arithmetic that relate the frequencies of a slice to those of the whole. -/
structure Exact (o : DOps D) : Prop where
  add_assoc : ∀ a b c, o.add (o.add a b) c = o.add a (o.add b c)
  mul_add : ∀ a b c, o.mul a (o.add b c) = o.add (o.mul a b) (o.mul a c)
  mul_assoc : ∀ a b c, o.mul (o.mul a b) c = o.mul a (o.mul b c)
  ofInt_add : ∀ m n, o.ofInt (m + n) = o.add (o.ofInt m) (o.ofInt n)
  ofInt_mul : ∀ m n, o.ofInt (m * n) = o.mul (o.ofInt m) (o.ofInt n)

/-- Rational arithmetic. -/
def ratOps : DOps ℚ where
  add := (· + ·)
  sub := (· - ·)
  mul := (· * ·)
  div := (· / ·)
  abs := fun x => if x < 0 then -x else x
  lt := fun a b => decide (a < b)
  ofInt := fun n => (n : ℚ)
  floor := fun x => ⌊x⌋
  lit := id

theorem ratOps_exact : Exact ratOps where
  add_assoc := fun a b c => by simp only [ratOps]; ring
  mul_add := fun a b c => by simp only [ratOps]; ring
  mul_assoc := fun a b c => by simp only [ratOps]; ring
  ofInt_add := fun m n => by simp [ratOps]
  ofInt_mul := fun m n => by simp [ratOps]

/-- A scan whose file has at least the dimensions time, feed and frequency, on a usable device, with
at most 2³¹-1 channels up to the end of the scan. -/
structure Readable (devOk : Dev → Bool) (s : Scan F D Dev P) : Prop where
  file : ∃ t f w rest, s.file = some (.ok (t :: f :: w :: rest))
  dev : devOk s.device = true
  fine : 0 ≤ s.fine
  size : s.fine * s.num < 2147483648

theorem fits_of {devOk : Dev → Bool} {s : Scan F D Dev P} (h : Readable devOk s) {i : Int} (h0 : 0 ≤ i)
    (hi : i ≤ s.num) : fitsInt (s.fine * i) = true := by
  have h1 : 0 ≤ s.fine * i := Int.mul_nonneg h.fine h0
  have h2 : s.fine * i ≤ s.fine * s.num := Int.mul_le_mul_of_nonneg_left hi h.fine
  have := h.size
  simp only [fitsInt, Bool.and_eq_true, decide_eq_true_eq]
  omega

theorem fresh_ok (o : DOps D) {devOk : Dev → Bool} {s : Scan F D Dev P} (h : Readable devOk s)
    {i : Int} (h0 : 0 ≤ i) (hi : i ≤ s.num) : ∃ c, fresh o devOk s i = .ok c := by
  obtain ⟨t, f, w, rest, hf⟩ := h.file
  unfold fresh Channel.setDevice
  simp only [hf, Outcome.bind_ok, fits_of h h0 hi, h.dev, if_true]
  exact ⟨_, rfl⟩

/-! ## C28: valid indices -/

/-- **C28 (part): valid indices are accepted.** Whatever has been read before, reading a channel
with `0 ≤ i < n` delivers a channel passed through the transforms that were added. -/
theorem C28_valid_index_partial (o : DOps D) (devOk : Dev → Bool) (s : Scan F D Dev P)
    (h : Readable devOk s) (i : Int) (h0 : 0 ≤ i) (hi : i < s.num) :
    ∃ c, (read o devOk s i).2 = applyAll s.pipeline c := by
  rw [read_view]
  unfold view
  rw [if_neg (by omega)]
  obtain ⟨c, hc⟩ : ∃ c, base o devOk s i = .ok c := by
    unfold base
    cases s.cache (i + s.offset) with
    | some c => exact ⟨c, rfl⟩
    | none => exact fresh_ok o h h0 (by omega)
  rw [hc]
  unfold Channel.setDevice
  simp only [Outcome.bind_ok, h.dev, if_true]
  exact ⟨_, rfl⟩

/-- **C28 (part): other indices are rejected**, except `n` itself, see `C28_accepts_n`. -/
theorem C28_invalid_index_partial (o : DOps D) (devOk : Dev → Bool) (s : Scan F D Dev P) (i : Int)
    (hi : i < 0 ∨ s.num < i) : (read o devOk s i).2 = .throws .outOfRange ∧
      (read o devOk s i).1 = s := by
  unfold read
  rw [if_pos (by omega)]
  exact ⟨rfl, rfl⟩

/-- **C28 fails for index `n`**: for every readable scan without transforms, reading one past the last
channel delivers a channel instead of throwing. -/
theorem C28_accepts_n (o : DOps D) (devOk : Dev → Bool) (s : Scan F D Dev P)
    (h : Readable devOk s) (hn : 0 ≤ s.num) (hp : s.pipeline = []) :
    ∃ c, (read o devOk s s.num).2 = .ok c := by
  rw [read_view]
  unfold view
  rw [if_neg (by omega)]
  obtain ⟨c, hc⟩ : ∃ c, base o devOk s s.num = .ok c := by
    unfold base
    cases s.cache (s.num + s.offset) with
    | some c => exact ⟨c, rfl⟩
    | none => exact fresh_ok o h hn (by omega)
  rw [hc, hp]
  unfold Channel.setDevice
  simp only [Outcome.bind_ok, h.dev, if_true]
  exact ⟨_, rfl⟩

/-- For a scan built from channels in memory, index `n` dereferences a null file handle. -/
theorem C28_n_undefined_in_memory (o : DOps D) (devOk : Dev → Bool) (s : Scan F D Dev P)
    (hn : 0 ≤ s.num) (hf : s.file = none) (hc : s.cache (s.num + s.offset) = none) :
    (read o devOk s s.num).2 = .ub := by
  unfold read fresh
  rw [if_neg (by omega), hc]
  simp only [hf]

/-- A header. -/
def exHeader : Header ℚ :=
  { foff := -1 / 1000, machineId := some 20, nbits := 32, nifs := 1, sourceName := "VOYAGER-1"
    srcDej := some 12, srcRaj := some 17, telescopeId := some 6, tsamp := 18, tstart := 57650
    dataType := 1, azStart := none, zaStart := none }

/-- A file of 16 time steps and 12 channels, as three coarse channels of four. -/
def exScan : Scan ℚ ℚ Bool Unit :=
  { cache := fun _ => none, file := some (.ok [16, 1, 12]), pipeline := [], fch1 := 8400
    hdr := exHeader, nchans := 12, fine := 4, num := 3, offset := 0, ntsteps := 16, duration := 288
    device := true }

theorem exScan_readable : Readable id exScan :=
  ⟨⟨16, 1, 12, [], rfl⟩, rfl, by decide, by decide⟩

/-- It is what opening the file gives. -/
theorem exScan_opened :
    openFile ratOps true ⟨8400, exHeader, some 12⟩ (.ok [16, 1, 12]) 4 = .ok exScan := by
  have h288 : ratOps.mul (ratOps.ofInt 16) exHeader.tsamp = (288 : ℚ) := by decide +kernel
  unfold openFile
  simp only [Outcome.bind_ok, Outcome.pure_eq]
  rw [if_neg (by decide)]
  simp only [Outcome.bind_ok, h288]
  rfl

example : ∃ c, (read ratOps id exScan 2).2 = applyAll exScan.pipeline c :=
  C28_valid_index_partial ratOps id exScan exScan_readable 2 (by decide) (by decide)

example : ∃ c, (read ratOps id exScan 3).2 = .ok c :=
  C28_accepts_n ratOps id exScan exScan_readable (by decide) rfl

/-! ## C29: slices -/

theorem slice_fch1 {o : DOps D} (he : Exact o) (x foff : D) (fine a i : Int) :
    o.add (o.add x (o.mul (o.mul foff (o.ofInt fine)) (o.ofInt a))) (o.mul foff (o.ofInt (fine * i))) =
      o.add x (o.mul foff (o.ofInt (fine * (a + i)))) := by
  have h1 : o.mul (o.mul foff (o.ofInt fine)) (o.ofInt a) = o.mul foff (o.ofInt (fine * a)) := by
    rw [he.mul_assoc, ← he.ofInt_mul]
  rw [h1, he.add_assoc, ← he.mul_add, ← he.ofInt_add, Int.mul_add]

/-- **C29 (part).** Channel `i` of a slice is channel `start + i` of the scan: reading either gives
the same channel — data window, frequency, number, metadata and the effect of the transforms — for
any scan state (so after any reads, peeks and slicing), any slice inside the scan and exact
arithmetic on frequencies. Slices that reach outside the scan are not rejected
(`C29_slice_not_checked`). -/
theorem C29_slice_index_partial (o : DOps D) (he : Exact o) (devOk : Dev → Bool)
    (s : Scan F D Dev P) (start count i : Int) (h0 : 0 ≤ start) (hfine : 0 ≤ s.fine)
    (hsize : s.fine * s.num < 2147483648) (hcount : 0 ≤ count) (hlast : start + count ≤ s.num)
    (hi0 : 0 ≤ i) (hi : i < count) :
    (read o devOk (slice o s start count) i).2 = (read o devOk s (start + i)).2 := by
  rw [read_view, read_view]
  unfold view
  have hn : (slice o s start count).num = count := by
    simp only [slice]
    rw [if_neg (by omega)]
  rw [hn, if_neg (by omega), if_neg (by omega)]
  have hb : base o devOk (slice o s start count) i = base o devOk s (start + i) := by
    unfold base
    have hk : i + (slice o s start count).offset = start + i + s.offset := by
      simp only [slice]; omega
    rw [hk]
    show (match s.cache (start + i + s.offset) with | some c => _ | none => _) = _
    cases s.cache (start + i + s.offset) with
    | some c => rfl
    | none =>
      unfold fresh
      simp only [slice]
      have hfit : ∀ j : Int, 0 ≤ j → j ≤ s.num → fitsInt (s.fine * j) = true := by
        intro j hj0 hj
        have h1 : 0 ≤ s.fine * j := Int.mul_nonneg hfine hj0
        have h2 : s.fine * j ≤ s.fine * s.num := Int.mul_le_mul_of_nonneg_left hj hfine
        simp only [fitsInt, Bool.and_eq_true, decide_eq_true_eq]
        omega
      have hoff : i + (s.offset + start) = start + i + s.offset := by omega
      simp only [hfit i hi0 (by omega), hfit (start + i) (by omega) (by omega), slice_fch1 he, hoff,
        if_true]
  rw [hb]
  rfl

/-- **C29 (part): slicing a slice is one slice.** The two scans are equal in every field. -/
theorem C29_slice_slice_partial (o : DOps D) (he : Exact o)
    (s : Scan F D Dev P) (a n b m : Int) (hm : m ≠ -1) :
    slice o (slice o s a n) b m = slice o s (a + b) m := by
  unfold slice
  simp only [if_neg hm]
  have h1 : o.add (o.add s.fch1 (o.mul (o.mul s.hdr.foff (o.ofInt s.fine)) (o.ofInt a)))
      (o.mul (o.mul s.hdr.foff (o.ofInt s.fine)) (o.ofInt b)) =
      o.add s.fch1 (o.mul (o.mul s.hdr.foff (o.ofInt s.fine)) (o.ofInt (a + b))) := by
    rw [he.add_assoc, ← he.mul_add, ← he.ofInt_add]
  have h2 : s.offset + a + b = s.offset + (a + b) := by omega
  rw [h1, h2]

/-- `count = -1` is the slice up to the end. -/
theorem C29_slice_rest (o : DOps D) (s : Scan F D Dev P) (a : Int) (ha : s.num - a ≠ -1) :
    slice o s a (-1) = slice o s a (s.num - a) := by
  unfold slice
  simp only [if_true, if_neg ha]

example : (read ratOps id (slice ratOps (run ratOps id exScan [.read 2, .peek 1]) 1 2) 1).2 =
    (read ratOps id (run ratOps id exScan [.read 2, .peek 1]) 2).2 := by
  have hs := run_same (o := ratOps) (devOk := id) [.read 2, .peek 1] exScan
  have hn : (run ratOps id exScan [.read 2, .peek 1]).num = 3 := by rw [hs.frame]; rfl
  have hf : (run ratOps id exScan [.read 2, .peek 1]).fine = 4 := by rw [hs.frame]; rfl
  exact C29_slice_index_partial ratOps ratOps_exact id _ 1 2 1 (by decide) (by rw [hf]; decide)
    (by rw [hf, hn]; decide) (by decide) (by rw [hn]; decide) (by decide) (by decide)

/-- A slice is not checked against the scan: channel 3 of 3 of the example can be sliced and read,
and its window lies outside the file. -/
theorem C29_slice_not_checked :
    ∃ c, (read ratOps id (slice ratOps exScan 3 1) 0).2 = .ok c ∧
      c.data = .file [0, 0, 12] [16, 1, 4] := by
  rw [read_view]
  exact ⟨_, rfl, rfl⟩

/-! ## C30: coarse channels tile the band -/

/-- A scan as opened from a file, before any transform is added: after any number of reads and
peeks. -/
structure FromFile (o : DOps D) (devOk : Dev → Bool) (t f w : Int) (s : Scan F D Dev P) : Prop where
  opened : ∃ (s0 : Scan F D Dev P) (ops : List (Op F D Dev P)), (∀ k, s0.cache k = none) ∧
    s0.pipeline = [] ∧ s0.file = some (.ok [t, f, w]) ∧ s0.offset = 0 ∧ added ops = [] ∧
    s = run o devOk s0 ops

/-- **C30.** For a scan opened from a file, after any reads and peeks, channel `i` has the window of
`fine` channels that starts at fine channel `fine * i` over all times and feeds, the number `i`, and
the frequency `fch1 + foff * (fine * i)`; the windows of channels `0 … n-1` are such that every fine
channel below `n * fine` lies in exactly one of them. -/
theorem C30_tiling (o : DOps D) (devOk : Dev → Bool) (t f w : Int) (s : Scan F D Dev P)
    (h : Readable devOk s) (hs : FromFile o devOk t f w s) :
    (∀ i, 0 ≤ i → i < s.num → ∃ c, (read o devOk s i).2 = .ok c ∧
      c.data = .file [0, 0, s.fine * i] [t, f, s.fine] ∧ c.number = i ∧ c.nchans = s.fine ∧
      c.ntsteps = t ∧ c.hdr = s.hdr ∧
      c.fch1 = o.add s.fch1 (o.mul s.hdr.foff (o.ofInt (s.fine * i)))) ∧
    (0 < s.fine → ∀ k, 0 ≤ k → k < s.num * s.fine →
      ∃ i, (0 ≤ i ∧ i < s.num ∧ s.fine * i ≤ k ∧ k < s.fine * i + s.fine) ∧
        ∀ j, (0 ≤ j ∧ j < s.num ∧ s.fine * j ≤ k ∧ k < s.fine * j + s.fine) → j = i) := by
  constructor
  · intro i h0 hi
    obtain ⟨s0, ops, hcache, hpipe, hfile, hoff, hadd, rfl⟩ := hs.opened
    have hsame := run_same (o := o) (devOk := devOk) ops s0
    rw [hadd, List.append_nil] at hsame
    have hfr : run o devOk s0 ops = { s0 with cache := (run o devOk s0 ops).cache } := hsame.frame
    have hnum : (run o devOk s0 ops).num = s0.num := by rw [hfr]
    have hfine : (run o devOk s0 ops).fine = s0.fine := by rw [hfr]
    have hhdr : (run o devOk s0 ops).hdr = s0.hdr := by rw [hfr]
    have hfch : (run o devOk s0 ops).fch1 = s0.fch1 := by rw [hfr]
    have hdev : (run o devOk s0 ops).device = s0.device := by rw [hfr]
    have hfit := fits_of h h0 (by omega)
    rw [hfine] at hfit
    have hd := h.dev
    rw [hdev] at hd
    rw [read_view, hsame.view_eq, hfine, hhdr, hfch]
    rw [hnum] at hi
    unfold view
    simp only []
    rw [if_neg (by omega)]
    unfold base
    rw [hcache]
    unfold fresh Channel.setDevice
    simp only [hfile, hoff, Outcome.bind_ok, hfit, hd, if_true, hpipe, applyAll, List.foldlM_nil,
      Outcome.pure_eq, Int.add_zero]
    exact ⟨_, rfl, rfl, rfl, rfl, rfl, rfl, rfl⟩
  · intro hf k hk0 hk
    refine ⟨k / s.fine, ⟨?_, ?_, ?_, ?_⟩, ?_⟩
    · exact Int.ediv_nonneg hk0 (by omega)
    · exact Int.ediv_lt_of_lt_mul hf hk
    · rw [Int.mul_comm]; exact Int.ediv_mul_le k (by omega)
    · have := Int.lt_ediv_add_one_mul_self k hf
      have e : (k / s.fine + 1) * s.fine = s.fine * (k / s.fine) + s.fine := by
        rw [Int.add_mul, Int.one_mul, Int.mul_comm]
      omega
    · rintro j ⟨hj0, hj, h1, h2⟩
      have e1 : j ≤ k / s.fine := (Int.le_ediv_iff_mul_le hf).2 (by rw [Int.mul_comm]; exact h1)
      have e2 : k / s.fine < j + 1 :=
        Int.ediv_lt_of_lt_mul hf (by rw [Int.add_mul, Int.one_mul, Int.mul_comm]; exact h2)
      omega

/-- The hypotheses of C30 are met after some reads. -/
example : FromFile ratOps id 16 1 12 (run ratOps id exScan [.read 2, .peek 0, .read 3]) ∧
    Readable id (run ratOps id exScan [.read 2, .peek 0, .read 3]) := by
  refine ⟨⟨exScan, _, fun _ => rfl, rfl, rfl, rfl, rfl, rfl⟩, ?_⟩
  have hs := run_same (o := ratOps) (devOk := id) [.read 2, .peek 0, .read 3] exScan
  rw [hs.frame]
  exact ⟨⟨16, 1, 12, [], rfl⟩, rfl, by decide, by decide⟩

/-- When the caller names a number of fine channels that does not divide the channel count, the
channels at the upper end of the file belong to no coarse channel (only a warning is printed). -/
theorem C30_remainder_dropped :
    ∃ s : Scan ℚ ℚ Bool Unit,
      openFile ratOps true ⟨8400, exHeader, some 10⟩ (.ok [16, 1, 10]) 4 = .ok s ∧
      s.num * s.fine = 8 ∧ s.nchans = 10 := by
  unfold openFile
  simp only [Outcome.bind_ok, Outcome.pure_eq]
  rw [if_neg (by decide)]
  exact ⟨_, rfl, by decide, by decide⟩

/-! ## C31: frequency lookup -/

/-- **C31 (part).** In exact arithmetic, with `n * fine` channels in the scan and either sign of the channel
spacing: a frequency that lies `x` fine channels into coarse channel `i` is looked up as `i`. This
includes slices, whose channel count is `n * fine` by construction. -/
theorem C31_frequency_lookup_partial (s : Scan F ℚ Dev P) (hn : 0 < s.num) (hf : 0 < s.fine)
    (hc : s.nchans = s.num * s.fine) (hfoff : s.hdr.foff ≠ 0) (i : Int) (x : ℚ) (hx0 : 0 ≤ x)
    (hx : x < s.fine) :
    channelWithFrequency ratOps s (s.fch1 + s.hdr.foff * ((s.fine : ℚ) * i + x)) = i := by
  have hfq : (0 : ℚ) < s.fine := by exact_mod_cast hf
  have hnq : (0 : ℚ) < s.num := by exact_mod_cast hn
  unfold channelWithFrequency
  simp only [ratOps, hc]
  rw [Int.floor_eq_iff]
  have e : (s.fch1 + s.hdr.foff * ((s.fine : ℚ) * i + x) - s.fch1) / s.hdr.foff /
      ((s.num * s.fine : Int) : ℚ) * (s.num : ℚ) = i + x / s.fine := by
    push_cast
    field_simp
    ring
  rw [e]
  have h1 : 0 ≤ x / s.fine := div_nonneg hx0 hfq.le
  have h2 : x / s.fine < 1 := (div_lt_one hfq).2 hx
  constructor <;> linarith

example : channelWithFrequency ratOps exScan (8400 + (-1 / 1000) * (4 * 2 + 3)) = 2 := by
  have := C31_frequency_lookup_partial exScan (by decide) (by decide) (by decide)
    (by simp [exScan, exHeader]) 2 3 (by norm_num) (by norm_num [exScan])
  simpa [exScan, exHeader] using this

/-- A slice keeps the relation between channel counts that C31 needs. -/
theorem slice_nchans (o : DOps D) (s : Scan F D Dev P) (a n : Int) :
    (slice o s a n).nchans = (slice o s a n).num * (slice o s a n).fine := rfl

/-- **C31 fails when the fine channel count does not divide the band**: the first frequency of coarse
channel 1 is looked up as channel 0. -/
theorem C31_uneven_channels :
    ∃ s : Scan ℚ ℚ Bool Unit,
      openFile ratOps true ⟨8400, exHeader, some 10⟩ (.ok [16, 1, 10]) 4 = .ok s ∧
      (∃ c, (read ratOps id s 1).2 = .ok c ∧ channelWithFrequency ratOps s c.fch1 = 0) := by
  unfold openFile
  simp only [Outcome.bind_ok, Outcome.pure_eq]
  rw [if_neg (by decide)]
  refine ⟨_, rfl, ?_⟩
  rw [read_view]
  refine ⟨_, rfl, ?_⟩
  decide +kernel

/-- Arithmetic in `double`: every result is rounded to 53 bits, ties to even. -/
def doubleOps : DOps ℚ where
  add := fun a b => Float.rne 53 (a + b)
  sub := fun a b => Float.rne 53 (a - b)
  mul := fun a b => Float.rne 53 (a * b)
  div := fun a b => Float.rne 53 (a / b)
  abs := fun x => if x < 0 then -x else x
  lt := fun a b => decide (a < b)
  ofInt := fun n => Float.rne 53 n
  floor := fun x => ⌊x⌋
  lit := Float.rne 53

/-- **C31 fails in double arithmetic**: the frequency that the scan itself gives to channel 2 (its
first fine channel) is looked up as channel 1. -/
theorem C31_rounding :
    ∃ c, (read doubleOps id { exScan with hdr := { exHeader with foff := Float.rne 53 (-1 / 1000) } }
      2).2 = .ok c ∧
    channelWithFrequency doubleOps
      { exScan with hdr := { exHeader with foff := Float.rne 53 (-1 / 1000) } } c.fch1 = 1 := by
  rw [read_view]
  refine ⟨_, rfl, ?_⟩
  decide +kernel

/-! ## C32: repeatable reads -/

/-- **C32.** After any sequence of reads, peeks, hit collections and transform additions — including
ones that threw — a read of channel `i` delivers the channel as it was in memory or in the file at
the start, on the scan's device, passed once through each transform of the scan in the order of their
addition. In particular two reads with no addition between them agree. -/
theorem C32_reads_repeatable (o : DOps D) (devOk : Dev → Bool) (s : Scan F D Dev P)
    (ops : List (Op F D Dev P)) (i : Int) (h0 : 0 ≤ i) (hi : i ≤ s.num) :
    (read o devOk (run o devOk s ops) i).2 =
      (match s.cache (i + s.offset) with
        | some c => Outcome.ok c
        | none => fresh o devOk s i) >>= fun c =>
      Channel.setDevice devOk s.device c >>= fun c' =>
      (s.pipeline ++ added ops).foldlM (fun c t => t c) c' := by
  rw [read_run]
  unfold view
  simp only []
  rw [if_neg (by omega)]
  rfl

/-- Two reads with reads, peeks and hit collections between them agree. -/
theorem C32_read_again (o : DOps D) (devOk : Dev → Bool) (s : Scan F D Dev P)
    (ops : List (Op F D Dev P)) (hops : added ops = []) (i : Int) :
    (read o devOk (run o devOk (read o devOk s i).1 ops) i).2 = (read o devOk s i).2 := by
  rw [read_run, read_view, hops, List.append_nil]
  exact (read_same s i).view_eq i

/-- A transform that counts its applications in `fch1` runs once per read, however often the channel
was read before. -/
example : (read ratOps id (run ratOps id exScan
    [.read 1, .add (fun c => .ok { c with fch1 := c.fch1 + 1 }), .read 1, .read 1]) 1).2 =
    (fresh ratOps id exScan 1 >>= fun c => .ok { c with fch1 := c.fch1 + 1 }) := by
  rw [C32_reads_repeatable _ _ _ _ _ (by decide) (by decide)]
  rfl

/-- A peek after a read sees the channel that the read delivered. -/
theorem C32_peek_after_read (o : DOps D) (devOk : Dev → Bool) (s : Scan F D Dev P) (i : Int)
    (c : Channel F D Dev P) (h : (read o devOk s i).2 = .ok c) :
    (peek devOk (read o devOk s i).1 i).2 = .ok (some c) := by
  have hread := C32_read_again o devOk s [] rfl i
  simp only [run, List.foldl_nil] at hread
  rw [h] at hread
  have hfr := (read_same (o := o) (devOk := devOk) s i).frame
  have hnum : (read o devOk s i).1.num = s.num := by rw [hfr]
  have hoff : (read o devOk s i).1.offset = s.offset := by rw [hfr]
  have hin : ¬ (i < 0 ∨ i > s.num) := by
    intro hbad
    unfold read at h
    rw [if_pos hbad] at h; cases h
  have hmem : ∃ c', (read o devOk s i).1.cache (i + s.offset) = some c' := by
    unfold read
    rw [if_neg hin]
    unfold read at h
    rw [if_neg hin] at h
    have key : ∀ c1, (finish devOk s (i + s.offset) c1).2 = .ok c →
        ∃ c', (finish devOk s (i + s.offset) c1).1.cache (i + s.offset) = some c' := by
      intro c1 hc1
      unfold finish at hc1 ⊢
      cases hs : Channel.setDevice devOk s.device c1 with
      | ok c' => exact ⟨c', by simp⟩
      | throws e => exact ⟨c1, by simp⟩
      | ub => rw [hs] at hc1; cases hc1
    cases hc : s.cache (i + s.offset) with
    | some c1 => rw [hc] at h; exact key c1 h
    | none =>
      rw [hc] at h
      simp only [] at h ⊢
      cases hf : fresh o devOk s i with
      | ok c1 => rw [hf] at h; exact key c1 h
      | throws e => rw [hf] at h; cases h
      | ub => rw [hf] at h; cases h
  obtain ⟨c', hc'⟩ := hmem
  generalize (read o devOk s i).1 = s1 at hread hnum hoff hc' ⊢
  unfold read at hread
  unfold peek
  rw [hnum, if_neg hin, hoff, hc'] at hread
  rw [hnum, if_neg hin, hoff, hc']
  simp only [] at hread ⊢
  rw [hread]
  rfl

/-- Metadata set after a channel was read does not reach that channel: the frequency of channel 0
depends on whether it was read before `set_fch1`. -/
theorem C32_set_fch1_stale :
    (∃ c, (read ratOps id (setFch1 9000 exScan) 0).2 = .ok c ∧ c.fch1 = 9000) ∧
    (∃ c, (read ratOps id (setFch1 9000 (read ratOps id exScan 0).1) 0).2 = .ok c ∧
      c.fch1 = 8400) := by
  constructor
  · rw [read_view]
    refine ⟨_, rfl, ?_⟩
    decide +kernel
  · rw [read_view]
    refine ⟨_, rfl, ?_⟩
    decide +kernel

/-! ## C33: hits of a scan -/

/-- The hits a channel contributes: none if asking for them raises a logic error. -/
def contribution (c : Channel F D Dev P) : List (Hit F D) :=
  match c.getHits with
  | .ok hs => hs
  | _ => []

theorem hitsFrom_ok (o : DOps D) (devOk : Dev → Bool) (s0 : Scan F D Dev P)
    (ch : Int → Channel F D Dev P) (k : Nat) (i : Int) (s : Scan F D Dev P)
    (hs : SameView o devOk s0 s)
    (hread : ∀ j, i ≤ j → j < i + k → (read o devOk s0 j).2 = .ok (ch j))
    (hhits : ∀ j, i ≤ j → j < i + k → (∃ l, (ch j).getHits = .ok l) ∨
      ∃ e, isLogicError e = true ∧ (ch j).getHits = .throws e) :
    (hitsFrom o devOk k i s).2 =
      .ok ((List.range k).flatMap (fun (j : Nat) => contribution (ch (i + j)))) := by
  induction k generalizing i s with
  | zero => rfl
  | succ k ih =>
    have hr : (read o devOk s i).2 = .ok (ch i) := by
      rw [read_view, hs.view_eq, ← read_view]
      exact hread i (by omega) (by omega)
    have hsame := hs.trans (read_same (o := o) (devOk := devOk) s i)
    have hrest := ih (i + 1) (read o devOk s i).1 hsame
      (fun j h1 h2 => hread j (by omega) (by push_cast; omega))
      (fun j h1 h2 => hhits j (by omega) (by push_cast; omega))
    have hshift : ((List.range k).flatMap fun (j : Nat) => contribution (ch (i + 1 + j))) =
        (List.range k).flatMap fun (j : Nat) => contribution (ch (i + ((j + 1 : Nat) : Int))) := by
      congr 1
      funext j
      congr 2
      push_cast; omega
    rw [List.range_succ_eq_map, List.flatMap_cons, List.flatMap_map]
    simp only [Nat.succ_eq_add_one]
    rw [← hshift]
    unfold hitsFrom
    cases hx : read o devOk s i with
    | mk s' r =>
      rw [hx] at hr hrest
      simp only [] at hr hrest
      subst hr
      simp only []
      rcases hhits i (by omega) (by push_cast; omega) with ⟨l, hl⟩ | ⟨e, he, hl⟩
      · rw [hl]
        simp only []
        rw [hrest]
        show Outcome.ok _ = _
        simp only [contribution, Int.natCast_zero, Int.add_zero, hl]
      · rw [hl]
        simp only [he, if_true]
        rw [hrest]
        simp only [contribution, Int.natCast_zero, Int.add_zero, hl, List.nil_append]

/-- **C33 (part).** If every channel can be read and asking a channel for its hits gives a list or a
logic error, the hits of the scan are the hits of channels `0 … n-1` in channel order, and the
channels with a logic error contribute nothing. What is missing: an exception while reading a
channel, even a logic error, is not caught (`C33_read_error_aborts`). -/
theorem C33_scan_hits_partial (o : DOps D) (devOk : Dev → Bool) (s : Scan F D Dev P)
    (ch : Int → Channel F D Dev P) (hread : ∀ j, 0 ≤ j → j < s.num → (read o devOk s j).2 = .ok (ch j))
    (hhits : ∀ j, 0 ≤ j → j < s.num → (∃ l, (ch j).getHits = .ok l) ∨
      ∃ e, isLogicError e = true ∧ (ch j).getHits = .throws e) :
    (hits o devOk s).2 = .ok ((List.range s.num.toNat).flatMap (fun (j : Nat) => contribution (ch j))) := by
  unfold hits
  have := hitsFrom_ok o devOk s ch s.num.toNat 0 s (SameView.refl s)
    (fun j h1 h2 => hread j h1 (by omega)) (fun j h1 h2 => hhits j h1 (by omega))
  simpa using this

/-- Reading fails with a logic error in one channel: `hits()` throws instead of skipping it. -/
theorem C33_read_error_aborts :
    (hits ratOps id (addTransform (fun c => if c.number = 1 then .throws .logicError else
      .ok { c with hits := some (.ok []) }) exScan)).2 = .throws .logicError := rfl

/-- A scan whose channel 1 has no hits set and whose other channels have one each. -/
example : ∃ l, (hits ratOps id (addTransform (fun (c : Channel ℚ ℚ Bool Unit) => if c.number = 1 then .ok c else
      .ok { c with hits := some (.ok [⟨c.number, 0, 0, 0, 0, 0, 0, 0, 0, 0, 0, [], 0⟩]) }) exScan)).2
      = .ok l ∧ l.map Hit.startFreqIndex = [0, 2] := ⟨_, rfl, rfl⟩

/-! ## C34: inferring the channelization -/

theorem inferKnown_mul (o : DOps D) (n : Int) (foff tsamp : D) (l : List (Int × ℚ × ℚ))
    (hl : ∀ e ∈ l, 0 < e.1) (r : Int × Int) (h : inferKnown o n foff tsamp l = some r) :
    r.1 * r.2 = n ∧ 0 < r.2 := by
  induction l with
  | nil => simp [inferKnown] at h
  | cons e l ih =>
    obtain ⟨fine, f, t⟩ := e
    simp only [inferKnown] at h
    split at h
    · rename_i hc
      simp only [Option.some.injEq] at h
      subst h
      exact ⟨hc.1, hl (fine, f, t) (by simp)⟩
    · exact ih (fun e he => hl e (by simp [he])) h

theorem inferCommon_mul (n common : Int) (hn : 0 ≤ n) (hc : 0 < common) (r : Int × Int)
    (h : inferCommon n common = .ok (some r)) : r.1 * r.2 = n ∧ 0 < r.1 ∧ 0 < r.2 := by
  unfold inferCommon at h
  simp only [] at h
  split at h
  · cases h
  · rename_i hne
    simp only [Outcome.ok.injEq] at h
    split at h
    · rename_i heq
      simp only [Option.some.injEq] at h
      subst h
      have h1 : 0 ≤ n.tdiv common := Int.tdiv_nonneg hn hc.le
      have h2 : 0 ≤ n.tmod common := Int.tmod_nonneg _ hn
      have h3 : 0 ≤ (n.tmod common).tdiv (n.tdiv common) := Int.tdiv_nonneg h2 h1
      refine ⟨by rw [Int.mul_comm]; exact heq, by omega, ?_⟩
      show 0 < common + _
      omega
    · cases h

theorem known_pos : ∀ e ∈ known, 0 < e.1 := by
  unfold known; simp

/-- **C34 (part): multiplying back.** For every channel count and resolution: if inference delivers a
pair, the product is the channel count, and both are positive if there are channels. -/
theorem C34_multiplies_back_partial (o : DOps D) (n : Int) (hn : 0 ≤ n) (foff tsamp : D)
    (r : Int × Int) (h : infer o n foff tsamp = .ok r) :
    r.1 * r.2 = n ∧ (0 < n → 0 < r.1 ∧ 0 < r.2) := by
  unfold infer at h
  cases hk : inferKnown o n foff tsamp known with
  | some r' =>
    rw [hk] at h
    simp only [Outcome.ok.injEq] at h
    subst h
    obtain ⟨h1, h2⟩ := inferKnown_mul o n foff tsamp known known_pos r' hk
    refine ⟨h1, fun hpos => ⟨?_, h2⟩⟩
    by_contra hneg
    have : r'.1 * r'.2 ≤ 0 := Int.mul_nonpos_of_nonpos_of_nonneg (by omega) (by omega)
    omega
  | none =>
    rw [hk] at h
    simp only [] at h
    cases h1 : inferCommon n 262144 with
    | ub => rw [h1] at h; cases h
    | throws e => rw [h1] at h; cases h
    | ok r1 =>
      rw [h1] at h
      simp only [Outcome.bind_ok] at h
      cases r1 with
      | some r' =>
        simp only [Outcome.ok.injEq] at h
        subst h
        obtain ⟨e1, e2, e3⟩ := inferCommon_mul n 262144 hn (by omega) r' h1
        exact ⟨e1, fun _ => ⟨e2, e3⟩⟩
      | none =>
        simp only [] at h
        cases h2 : inferCommon n 1000000 with
        | ub => rw [h2] at h; cases h
        | throws e => rw [h2] at h; cases h
        | ok r2 =>
          rw [h2] at h
          simp only [Outcome.bind_ok] at h
          cases r2 with
          | some r' =>
            simp only [Outcome.ok.injEq] at h
            subst h
            obtain ⟨e1, e2, e3⟩ := inferCommon_mul n 1000000 hn (by omega) r' h2
            exact ⟨e1, fun _ => ⟨e2, e3⟩⟩
          | none =>
            simp only [Outcome.ok.injEq] at h
            subst h
            exact ⟨by simp, fun hp => ⟨Int.one_pos, hp⟩⟩

theorem inferCommon_defined (n common : Int) (hc : 0 < common) (hn : common ≤ n) :
    ∃ r, inferCommon n common = .ok r := by
  unfold inferCommon
  have : n.tdiv common ≠ 0 := by
    rw [Int.tdiv_eq_ediv_of_nonneg (by omega)]
    have : 1 ≤ n / common := (Int.le_ediv_iff_mul_le hc).2 (by omega)
    omega
  simp only [if_neg this]
  exact ⟨_, rfl⟩

/-- **C34 (part): defined behaviour.** Inference delivers a pair when the channelization is a known
one, from a million channels on, and between 2¹⁸ and 2¹⁹ channels. -/
theorem C34_defined_partial (o : DOps D) (n : Int) (foff tsamp : D)
    (h : (∃ r, inferKnown o n foff tsamp known = some r) ∨ 1000000 ≤ n ∨
      (262144 ≤ n ∧ n < 524288)) :
    ∃ r, infer o n foff tsamp = .ok r := by
  unfold infer
  cases hk : inferKnown o n foff tsamp known with
  | some r => exact ⟨r, rfl⟩
  | none =>
    have hn : 262144 ≤ n := by
      rcases h with ⟨r, hr⟩ | h | h
      · rw [hk] at hr; cases hr
      · omega
      · omega
    obtain ⟨r1, h1⟩ := inferCommon_defined n 262144 (by omega) hn
    simp only [h1, Outcome.bind_ok]
    cases r1 with
    | some r => exact ⟨r, rfl⟩
    | none =>
      rcases h with ⟨r, hr⟩ | h | h
      · rw [hk] at hr; cases hr
      · obtain ⟨r2, h2⟩ := inferCommon_defined n 1000000 (by omega) h
        simp only [h2, Outcome.bind_ok]
        cases r2 with
        | some r => exact ⟨r, rfl⟩
        | none => exact ⟨_, rfl⟩
      · exfalso
        unfold inferCommon at h1
        have e1 : n.tdiv 262144 = 1 := by
          rw [Int.tdiv_eq_ediv_of_nonneg (by omega)]; omega
        have e2 : n.tmod 262144 = n - 262144 := by
          rw [Int.tmod_eq_emod_of_nonneg (by omega)]; omega
        simp only [e1, e2, Int.tdiv_one] at h1
        rw [if_neg (by omega), if_pos (by omega)] at h1
        cases h1

/-- **C34 fails: division by zero.** Fewer than 2¹⁸ channels that match no known channelization. -/
theorem C34_small_undefined (o : DOps D) (n : Int) (h0 : 0 ≤ n) (hn : n < 262144) (foff tsamp : D)
    (hk : inferKnown o n foff tsamp known = none) : infer o n foff tsamp = .ub := by
  unfold infer
  rw [hk]
  have : n.tdiv 262144 = 0 := by rw [Int.tdiv_eq_ediv_of_nonneg h0]; omega
  simp only [inferCommon, this, if_true]
  rfl

/-- A file of 65536 channels of 1 Hz and 1 s, exactly the situation of `C34_small_undefined`. -/
example : infer ratOps 65536 1 1 = .ub :=
  C34_small_undefined ratOps 65536 (by decide) (by decide) 1 1 (by decide +kernel)

/-- The same in the middle range, when the count cannot be split evenly. -/
theorem C34_middle_undefined : infer ratOps 524289 1 1 = .ub := by decide +kernel

/-- Voyager-like data: 2²⁰ channels of 2.79 Hz and 18.25 s are one coarse channel. -/
example : infer ratOps 1048576 (-279 / 100) (1825 / 100) = .ok (1, 1048576) := by decide +kernel

/-- 64 million channels without a known channelization. -/
example : ∃ r, infer ratOps 64000000 1 1 = .ok r ∧ r.1 * r.2 = 64000000 := by
  obtain ⟨r, hr⟩ := C34_defined_partial ratOps 64000000 1 1 (Or.inr (Or.inl (by decide)))
  exact ⟨r, hr, (C34_multiplies_back_partial ratOps _ (by decide) _ _ r hr).1⟩

/-- A file without the optional `nchans` attribute cannot be opened: the count is used
uninitialised. -/
theorem C34_missing_nchans_undefined (o : DOps D) (dev : Dev) (x : D) (hdr : Header D)
    (shape : Outcome (List Int)) (k : Int) :
    (openFile o dev ⟨x, hdr, none⟩ shape k : Outcome (Scan F D Dev P)) = .ub := rfl

end Bliss.Scan
