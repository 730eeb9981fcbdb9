import Verif.Misc.H5Shape
import Verif.Scan.Props
import Verif.Nd.Props

/-!
# Reading samples and masks from HDF5 files (C97, C98)

Models `read_data` and `read_mask` of bliss/file_types/h5_filterbank_file.cpp (lines 296-381) and the
readers that `scan::read_coarse_channel` hands to a coarse channel (bliss/core/scan.cpp lines
223-237). The HDF5 library is outside the model; what is assumed of it is stated at `readData`.
-/

namespace Bliss.H5Read

open Bliss.Nd Bliss.H5Shape Bliss.Scan

variable {V F D Dev P : Type}

/-- A filterbank file: the dataset `data` with its sample at every index, in the order of the axes of
the dataset and after HDF5 has converted it to `float`; and the dataset `mask`, if any. -/
structure File (V : Type) extends Dataset where
  sample : List Int → V
  mask : Option (List Int → V)

/-- Index of element `k` in row-major order. -/
def unravel : List Int → Int → List Int
  | [], _ => []
  | _ :: ss, k => k / (denseDims ss).2 :: unravel ss (k % (denseDims ss).2)

/-- The selection lies in the dataset. -/
def inside : List Int → List Int → List Int → Bool
  | o :: os, c :: cs, d :: ds => decide (o + c ≤ d) && inside os cs ds
  | _, _, _ => true

/-- `read_data(offset, count)` (h5_filterbank_file.cpp lines 296-332). Of HDF5 it is assumed that
`selectHyperslab` reads as many entries of both vectors as the dataset has axes, and that `read`
copies the selected samples to memory in row-major order, or throws if the selection (unless it is
empty) leaves the dataset or its size differs from that of the memory. HDF5's exceptions are not
derived from `std::exception`; here they are `runtimeError`. A negative entry, which becomes a huge
unsigned one, is taken as undefined. -/
def readData (f : File V) (offset count : List Int) (junk : Int → V) (h : Heap V) :
    Outcome (Heap V × Arr) := do
  let shape ← getDataShape f.toDataset
  let offset := if offset = [] then List.replicate shape.length 0 else offset
  let count ← if count = [] then
      match shape, offset with
      | t :: d :: n :: rest, a :: b :: c :: _ => Outcome.ok ((t - a) :: (d - b) :: (n - c) :: rest)
      | _, _ => .ub
    else .ok count
  if (offset ++ count).any (· < 0) then .ub
  else
    let (h1, a) := alloc h count junk
    let r := f.dims.length
    if offset.length < r ∨ count.length < r then .ub
    else if (denseDims (count.take r)).2 ≠ (denseDims count).2 ∨
        (0 ∉ count.take r ∧ inside offset count f.dims = false) then .throws .runtimeError
    else do
      let b := Buf.ofFn (denseDims count).2
        (fun k => f.sample (List.zipWith (· + ·) offset (unravel (count.take r) k)))
      let s ← squeeze a 1
      pure ({ h1 with mem := fun k => if k = a.blk then b else h1.mem k }, s)

/-- `read_mask(offset, count)` (lines 334-381): `bland::zeros(count)` (creators.cpp), squeezed. Neither
the offset nor the dataset `mask` is looked at. -/
def readMask (_f : File V) (zero : V) (_offset count : List Int) (h : Heap V) :
    Outcome (Heap V × Arr) := do
  let (h1, a) := alloc h count (fun _ => zero)
  let s ← squeeze a 1
  pure (h1, s)

/-- What `data()` of a coarse channel delivers: evaluation of the reader of scan.cpp lines 232-234.
`other` are data that do not come from a file. -/
def evalData (f : File V) (other : P → Outcome (Heap V × Arr)) (c : Channel F D Dev P)
    (junk : Int → V) (h : Heap V) : Outcome (Heap V × Arr) :=
  match c.data with
  | .file offset count => readData f offset count junk h
  | .other p => other p

/-! ## Specification -/

/-- The index, in the order of the axes of the dataset, of the sample at time step `t` and frequency
channel `k`, going by the labels of the axes. -/
def named (labels : List String) (t k : Int) : List Int :=
  labels.map (fun l => if l = "time" then t else if l = "frequency" then k else 0)

/-- The sample that the file holds for time step `t` and frequency channel `k`. -/
def File.at (f : File V) (t k : Int) : V := f.sample (named (f.labels.getD []) t k)

/-! ## Proofs -/

theorem unravel_addr {shape idx : List Int} (h : ValidIdx shape idx) :
    unravel shape (addr (denseDims shape).1 idx) = idx := by
  unfold ValidIdx at h
  induction h with
  | nil => rfl
  | @cons s i ss is h hs ih =>
    have hb := dense_bounds (show ValidIdx ss is from hs)
    simp only [denseDims, addr, unravel, zero_add]
    have h0 : 0 < (denseDims ss).2 := by omega
    have e1 : (i * (denseDims ss).2 + addr (denseDims ss).1 is) / (denseDims ss).2 = i := by
      rw [Int.add_comm, Int.add_mul_ediv_right _ _ (by omega), Int.ediv_eq_zero_of_lt hb.1 hb.2]
      omega
    have e2 : (i * (denseDims ss).2 + addr (denseDims ss).1 is) % (denseDims ss).2 =
        addr (denseDims ss).1 is := by
      rw [Int.add_comm, Int.add_mul_emod_self_right, Int.emod_eq_of_lt hb.1 hb.2]
    rw [e1, e2, ih]

/-- Reading a window of a dataset with three axes. -/
theorem readData_window (f : File V) (d0 d1 d2 : Int) (hd : f.dims = [d0, d1, d2]) {shape : List Int}
    (hs : getDataShape f.toDataset = .ok shape) (a b c x z : Int) (ha : 0 ≤ a) (hb : 0 ≤ b)
    (hc : 0 ≤ c) (hx : 0 ≤ x) (hz : 0 ≤ z) (h0 : a + x ≤ d0) (h1 : b + 1 ≤ d1) (h2 : c + z ≤ d2)
    (junk : Int → V) (h : Heap V) :
    ∃ h' r, readData f [a, b, c] [x, 1, z] junk h = .ok (h', r) ∧ r.shape = [x, z] ∧
      (∀ t k, 0 ≤ t → t < x → 0 ≤ k → k < z →
        h'.get r [t, k] = some (f.sample [a + t, b, c + k])) ∧ h.Frame h' := by
  have hsq : squeeze (alloc h [x, 1, z] junk).2 1 =
      .ok ⟨h.next, [⟨x, z, 0⟩, ⟨z, 1, 0⟩]⟩ := by
    simp [squeeze, alloc, denseDims]
  have he : readData f [a, b, c] [x, 1, z] junk h =
      .ok (⟨fun k => if k = h.next then
          Buf.ofFn (denseDims [x, 1, z]).2
            (fun k => f.sample (List.zipWith (· + ·) [a, b, c] (unravel [x, 1, z] k)))
          else (alloc h [x, 1, z] junk).1.mem k, h.next + 1⟩,
        ⟨h.next, [⟨x, z, 0⟩, ⟨z, 1, 0⟩]⟩) := by
    unfold readData
    rw [hs, Outcome.bind_ok]
    simp only [List.cons_ne_nil, if_false, reduceCtorEq, Outcome.bind_ok]
    rw [if_neg (by simp; omega)]
    simp only [hd, List.length_cons, List.length_nil, List.take_succ_cons, List.take_zero, inside]
    rw [if_neg (by omega), if_neg (by simp [h0, h1, h2])]
    rw [hsq, Outcome.bind_ok]
    rfl
  refine ⟨_, _, he, rfl, ?_, ?_⟩
  · intro t k t0 t1 k0 k1
    have hv : ValidIdx [x, 1, z] [t, 0, k] :=
      .cons ⟨t0, t1⟩ (.cons ⟨by omega, by omega⟩ (.cons ⟨k0, k1⟩ .nil))
    have hb := dense_bounds hv
    have hu := unravel_addr hv
    have e : addr (denseDims [x, 1, z]).1 [t, 0, k] = t * z + k := by
      simp [denseDims, addr]
    rw [e] at hb hu
    have e2 : addr [⟨x, z, 0⟩, ⟨z, 1, 0⟩] [t, k] = t * z + k := by simp [addr]
    simp only [Heap.get, e2, if_true, Buf.ofFn]
    rw [if_pos hb, hu]
    simp
  · intro b hb
    have : b ≠ h.next := by omega
    simp [alloc, this]

theorem readData_whole (f : File V) {shape : List Int} (hs : getDataShape f.toDataset = .ok shape)
    (t n : Int) (he : shape = [t, 1, n]) (a c : Int) (junk : Int → V) (h : Heap V) :
    readData f [] [] junk h = readData f [0, 0, 0] [t, 1, n] junk h ∧
    readData f [a, 0, c] [] junk h = readData f [a, 0, c] [t - a, 1, n - c] junk h ∧
    readData f [] [t, 1, n] junk h = readData f [0, 0, 0] [t, 1, n] junk h := by
  subst he
  unfold readData
  rw [hs]
  simp [List.replicate]

/-- What opening a file gives. -/
theorem openFile_props (o : DOps D) (dev : Dev) (a : Attrs D) (t d w N fineGiven : Int)
    (hN : a.nchans = some N) (h0 : 0 < N) (hg : 0 ≤ fineGiven) (s : Scan F D Dev P)
    (h : openFile o dev a (.ok [t, d, w]) fineGiven = .ok s) :
    (∀ k, s.cache k = none) ∧ s.pipeline = [] ∧ s.file = some (.ok [t, d, w]) ∧ s.offset = 0 ∧
      s.device = dev ∧ 0 ≤ s.num ∧ 0 ≤ s.fine ∧ s.fine * s.num ≤ N ∧ s.fch1 = a.fch1 ∧
      s.hdr = a.hdr := by
  unfold openFile at h
  rw [hN] at h
  simp only [Outcome.bind_ok, Outcome.pure_eq] at h
  by_cases hz : fineGiven = 0
  · rw [if_pos hz] at h
    cases hi : infer o N (o.mul (o.lit 1000000) a.hdr.foff) a.hdr.tsamp with
    | throws e => rw [hi] at h; cases h
    | ub => rw [hi] at h; cases h
    | ok r =>
      rw [hi, Outcome.bind_ok] at h
      cases h
      obtain ⟨h1, h2⟩ := C34_multiplies_back_partial o N h0.le _ _ r hi
      refine ⟨fun _ => rfl, rfl, rfl, rfl, rfl, (h2 h0).1.le, (h2 h0).2.le, ?_, rfl, rfl⟩
      · show r.2 * r.1 ≤ N
        rw [Int.mul_comm]; omega
  · rw [if_neg hz] at h
    cases h
    have hp : 0 < fineGiven := by omega
    refine ⟨fun _ => rfl, rfl, rfl, rfl, rfl, ?_, hg, ?_, rfl, rfl⟩
    · show 0 ≤ N.tdiv fineGiven
      rw [Int.tdiv_eq_ediv_of_nonneg h0.le]
      exact Int.ediv_nonneg h0.le hg
    · show fineGiven * N.tdiv fineGiven ≤ N
      rw [Int.tdiv_eq_ediv_of_nonneg h0.le]
      exact Int.mul_ediv_self_le (by omega)

/-- A scan opened from the file (with `fineGiven` fine channels per coarse channel, or as inferred for
0) and then read and peeked at any number of times. -/
structure Opened (o : DOps D) (devOk : Dev → Bool) (f : File V) (s : Scan F D Dev P) : Prop where
  opened : ∃ (dev : Dev) (a : Attrs D) (fineGiven : Int) (s0 : Scan F D Dev P)
    (ops : List (Op F D Dev P)), openFile o dev a (getDataShape f.toDataset) fineGiven = .ok s0 ∧
      a.nchans = f.nchans ∧ 0 ≤ fineGiven ∧ devOk dev = true ∧ added ops = [] ∧
      s = run o devOk s0 ops

theorem Opened.channel {o : DOps D} {devOk : Dev → Bool} {f : File V} {s : Scan F D Dev P}
    (ho : Opened o devOk f s) {T W N : Int} (hs : getDataShape f.toDataset = .ok [T, 1, W])
    (hn : f.nchans = some N) (h0 : 0 < N) (hN : N < 2147483648) :
    0 ≤ s.fine ∧ s.fine * s.num ≤ N ∧ ∀ i, 0 ≤ i → i < s.num → ∃ c, (read o devOk s i).2 = .ok c ∧
      c.data = .file [0, 0, s.fine * i] [T, 1, s.fine] := by
  obtain ⟨dev, a, g, s0, ops, hopen, ha, hg, hdev, hadd, rfl⟩ := ho.opened
  rw [hs] at hopen
  obtain ⟨p1, p2, p3, p4, p5, p6, p7, p8, -, -⟩ :=
    openFile_props o dev a T 1 W N g (by rw [ha, hn]) h0 hg s0 hopen
  have hsame := run_same (o := o) (devOk := devOk) ops s0
  rw [hadd, List.append_nil] at hsame
  have hfr : run o devOk s0 ops = { s0 with cache := (run o devOk s0 ops).cache } := hsame.frame
  have hr : Readable devOk (run o devOk s0 ops) := by
    rw [hfr]
    exact ⟨⟨T, 1, W, [], p3⟩, by rw [p5]; exact hdev, p7, by show s0.fine * s0.num < _; omega⟩
  have hfine : (run o devOk s0 ops).fine = s0.fine := by rw [hfr]
  have hnum : (run o devOk s0 ops).num = s0.num := by rw [hfr]
  refine ⟨hr.fine, by rw [hfine, hnum]; exact p8, fun i hi0 hi1 => ?_⟩
  obtain ⟨c, hc, hd, -⟩ := (C30_tiling o devOk T 1 W _ hr
    ⟨s0, ops, p1, p2, p3, p4, hadd, rfl⟩).1 i hi0 hi1
  exact ⟨c, hc, hd⟩

/-- The shape found for the usual order of the axes. -/
theorem shape_usual (f : File V) (T N : Int) (hd : f.dims = [T, 1, N])
    (hl : f.labels = some ["time", "feed_id", "frequency"]) (hn : f.nchans = some N) :
    getDataShape f.toDataset = .ok [T, 1, N] := by
  simp [getDataShape, hl, hd, hn, scanDims, H5Shape.step, H5Shape.finish]

/-- **C97.** Axes time, feed, frequency: after opening the file, with any number of fine channels per
coarse channel, and any reads, the data of coarse channel `i` are, at `[t, k]`, the sample that the
file holds for time step `t` and frequency channel `fine * i + k`. Missing: other orders of the axes
(`C97_reordered_axes`) and further axes (`C97_extra_axis_undefined`). -/
theorem C97_channel_partial (o : DOps D) (devOk : Dev → Bool) (f : File V) (T N : Int)
    (hT : 0 ≤ T) (h0 : 0 < N) (hN : N < 2147483648) (hd : f.dims = [T, 1, N])
    (hl : f.labels = some ["time", "feed_id", "frequency"]) (hn : f.nchans = some N)
    (s : Scan F D Dev P) (hs : Opened o devOk f s) (i : Int) (hi0 : 0 ≤ i) (hi : i < s.num)
    (other : P → Outcome (Heap V × Arr)) (junk : Int → V) (h : Heap V) :
    ∃ c h' r, (read o devOk s i).2 = .ok c ∧ evalData f other c junk h = .ok (h', r) ∧
      r.shape = [T, s.fine] ∧
      (∀ t k, 0 ≤ t → t < T → 0 ≤ k → k < s.fine →
        h'.get r [t, k] = some (f.at t (s.fine * i + k))) ∧ h.Frame h' := by
  have hsh := shape_usual f T N hd hl hn
  obtain ⟨hf, hle, hch⟩ := hs.channel hsh hn h0 hN
  obtain ⟨c, hc, hcd⟩ := hch i hi0 hi
  have hin : s.fine * i + s.fine ≤ N := by
    have : s.fine * (i + 1) ≤ s.fine * s.num := Int.mul_le_mul_of_nonneg_left (by omega) hf
    rw [Int.mul_add, Int.mul_one] at this
    omega
  obtain ⟨h', r, e1, e2, e3, e4⟩ := readData_window f T 1 N hd hsh 0 0 (s.fine * i) T s.fine
    le_rfl le_rfl (Int.mul_nonneg hf hi0) hT hf (by omega) (by omega) hin junk h
  refine ⟨c, h', r, hc, ?_, e2, fun t k t0 t1 k0 k1 => ?_, e4⟩
  · unfold evalData; rw [hcd]; exact e1
  · rw [e3 t k t0 t1 k0 k1]
    simp [File.at, named, hl]

/-- A window of a file with the usual axes, and the defaults: no offset is the beginning, no count is
everything from the offset on. -/
theorem C97_window_partial (f : File V) (T N : Int) (hd : f.dims = [T, 1, N])
    (hl : f.labels = some ["time", "feed_id", "frequency"]) (hn : f.nchans = some N)
    (a c : Int) (ha : 0 ≤ a) (haT : a ≤ T) (hc : 0 ≤ c) (hcN : c ≤ N) (junk : Int → V) (h : Heap V) :
    (∀ x z, 0 ≤ x → 0 ≤ z → a + x ≤ T → c + z ≤ N →
      ∃ h' r, readData f [a, 0, c] [x, 1, z] junk h = .ok (h', r) ∧ r.shape = [x, z] ∧
        (∀ t k, 0 ≤ t → t < x → 0 ≤ k → k < z → h'.get r [t, k] = some (f.at (a + t) (c + k)))) ∧
    (∃ h' r, readData f [a, 0, c] [] junk h = .ok (h', r) ∧ r.shape = [T - a, N - c] ∧
        (∀ t k, 0 ≤ t → t < T - a → 0 ≤ k → k < N - c →
          h'.get r [t, k] = some (f.at (a + t) (c + k)))) ∧
    (∃ h' r, readData f [] [] junk h = .ok (h', r) ∧ r.shape = [T, N] ∧
        (∀ t k, 0 ≤ t → t < T → 0 ≤ k → k < N → h'.get r [t, k] = some (f.at t k))) := by
  have hsh := shape_usual f T N hd hl hn
  obtain ⟨w1, w2, -⟩ := readData_whole f hsh T N rfl a c junk h
  have key : ∀ a c, 0 ≤ a → 0 ≤ c → ∀ x z, 0 ≤ x → 0 ≤ z → a + x ≤ T → c + z ≤ N →
      ∃ h' r, readData f [a, 0, c] [x, 1, z] junk h = .ok (h', r) ∧ r.shape = [x, z] ∧
        (∀ t k, 0 ≤ t → t < x → 0 ≤ k → k < z →
          h'.get r [t, k] = some (f.at (a + t) (c + k))) := by
    intro a c ha hc x z hx hz h1 h2
    obtain ⟨h', r, e1, e2, e3, -⟩ := readData_window f T 1 N hd hsh a 0 c x z ha le_rfl hc hx hz h1
      (by omega) h2 junk h
    refine ⟨h', r, e1, e2, fun t k t0 t1 k0 k1 => ?_⟩
    rw [e3 t k t0 t1 k0 k1]
    simp [File.at, named, hl]
  refine ⟨key a c ha hc, ?_, ?_⟩
  · rw [w2]; exact key a c ha hc _ _ (by omega) (by omega) (by omega) (by omega)
  · rw [w1]
    simpa using key 0 0 le_rfl le_rfl T N (by omega) (by omega) (by omega) (by omega)

/-- **Violation of C97.** `read_coarse_channel` accepts the index one past the last channel
(`C28_accepts_n`); with the usual axes and no remainder, its data cannot be read. -/
theorem C97_past_the_end (f : File V) (T N fine : Int) (hT : 0 < T) (hf : 0 < fine)
    (hd : f.dims = [T, 1, N]) (hl : f.labels = some ["time", "feed_id", "frequency"])
    (hn : f.nchans = some N) (i : Int) (hi : 0 ≤ i) (hlast : N < fine * i + fine) (junk : Int → V)
    (h : Heap V) :
    readData f [0, 0, fine * i] [T, 1, fine] junk h = .throws .runtimeError := by
  have hm := Int.mul_nonneg hf.le hi
  unfold readData
  rw [shape_usual f T N hd hl hn, Outcome.bind_ok]
  simp only [List.cons_ne_nil, if_false, Outcome.bind_ok]
  rw [if_neg (by simp; omega)]
  simp only [hd, List.length_cons, List.length_nil, List.take_succ_cons, List.take_zero, inside]
  rw [if_neg (by omega), if_pos]
  right
  refine ⟨by simp; omega, ?_⟩
  have : ¬ (fine * i + fine ≤ N) := by omega
  simp [this]

/-- **Violation of C97.** A file whose axes are, correctly labelled, frequency, feed and time opens
like any other, but the window is taken in the order of the axes of the file. If it fits, time and
frequency are exchanged in what is read; if it does not, reading throws. -/
theorem C97_reordered_axes (o : DOps D) (devOk : Dev → Bool) (f : File V) (T N : Int)
    (hT : 0 < T) (h0 : 0 < N) (hN : N < 2147483648) (hTN : T ≠ N) (hd : f.dims = [N, 1, T])
    (hl : f.labels = some ["frequency", "feed_id", "time"]) (hn : f.nchans = some N)
    (s : Scan F D Dev P) (hs : Opened o devOk f s) (i : Int) (hi0 : 0 ≤ i) (hi : i < s.num)
    (hfine : 0 < s.fine)
    (other : P → Outcome (Heap V × Arr)) (junk : Int → V) (h : Heap V) :
    ∃ c, (read o devOk s i).2 = .ok c ∧
      (T ≤ N ∧ s.fine * i + s.fine ≤ T → ∃ h' r, evalData f other c junk h = .ok (h', r) ∧
        r.shape = [T, s.fine] ∧ ∀ t k, 0 ≤ t → t < T → 0 ≤ k → k < s.fine →
          h'.get r [t, k] = some (f.at (s.fine * i + k) t)) ∧
      (¬ (T ≤ N ∧ s.fine * i + s.fine ≤ T) → evalData f other c junk h = .throws .runtimeError) := by
  have hsh : getDataShape f.toDataset = .ok [T, 1, N] := by
    simp [getDataShape, hl, hd, hn, scanDims, H5Shape.step, H5Shape.finish, hTN]
  obtain ⟨hf, hle, hch⟩ := hs.channel hsh hn h0 hN
  obtain ⟨c, hc, hcd⟩ := hch i hi0 hi
  have hm := Int.mul_nonneg hf hi0
  refine ⟨c, hc, ?_, ?_⟩
  · rintro ⟨h1, h2⟩
    obtain ⟨h', r, e1, e2, e3, e4⟩ := readData_window f N 1 T hd hsh 0 0 (s.fine * i) T s.fine
      le_rfl le_rfl hm hT.le hf (by omega) (by omega) h2 junk h
    refine ⟨h', r, ?_, e2, fun t k t0 t1 k0 k1 => ?_⟩
    · unfold evalData; rw [hcd]; exact e1
    · rw [e3 t k t0 t1 k0 k1]
      simp [File.at, named, hl]
  · intro hbad
    unfold evalData
    rw [hcd]
    show readData f [0, 0, s.fine * i] [T, 1, s.fine] junk h = _
    unfold readData
    rw [hsh, Outcome.bind_ok]
    simp only [List.cons_ne_nil, if_false, Outcome.bind_ok]
    rw [if_neg (by simp; omega)]
    simp only [hd, List.length_cons, List.length_nil, List.take_succ_cons, List.take_zero, inside]
    rw [if_neg (by omega), if_pos]
    right
    refine ⟨by simp; omega, ?_⟩
    simp
    omega

/-- Files that have the labels of time and frequency exchanged, but the usual layout, are read
correctly: the sample at `[t, k]` is the one at that place in the file. -/
theorem C97_mislabelled_axes (o : DOps D) (devOk : Dev → Bool) (f : File V) (T N : Int)
    (hT : 0 ≤ T) (h0 : 0 < N) (hN : N < 2147483648) (hTN : T ≠ N) (hd : f.dims = [T, 1, N])
    (hl : f.labels = some ["frequency", "feed_id", "time"]) (hn : f.nchans = some N)
    (s : Scan F D Dev P) (hs : Opened o devOk f s) (i : Int) (hi0 : 0 ≤ i) (hi : i < s.num)
    (other : P → Outcome (Heap V × Arr)) (junk : Int → V) (h : Heap V) :
    ∃ c h' r, (read o devOk s i).2 = .ok c ∧ evalData f other c junk h = .ok (h', r) ∧
      r.shape = [T, s.fine] ∧
      (∀ t k, 0 ≤ t → t < T → 0 ≤ k → k < s.fine →
        h'.get r [t, k] = some (f.sample [t, 0, s.fine * i + k])) := by
  have hsh : getDataShape f.toDataset = .ok [T, 1, N] := by
    simp [getDataShape, hl, hd, hn, scanDims, H5Shape.step, H5Shape.finish, hTN]
  obtain ⟨hf, hle, hch⟩ := hs.channel hsh hn h0 hN
  obtain ⟨c, hc, hcd⟩ := hch i hi0 hi
  have hin : s.fine * i + s.fine ≤ N := by
    have : s.fine * (i + 1) ≤ s.fine * s.num := Int.mul_le_mul_of_nonneg_left (by omega) hf
    rw [Int.mul_add, Int.mul_one] at this
    omega
  obtain ⟨h', r, e1, e2, e3, e4⟩ := readData_window f T 1 N hd hsh 0 0 (s.fine * i) T s.fine
    le_rfl le_rfl (Int.mul_nonneg hf hi0) hT hf (by omega) (by omega) hin junk h
  refine ⟨c, h', r, hc, ?_, e2, fun t k t0 t1 k0 k1 => ?_⟩
  · unfold evalData; rw [hcd]; exact e1
  · rw [e3 t k t0 t1 k0 k1]; simp

/-- **Violation of C97.** A fourth axis of size other than one is accepted when the file is opened;
reading then looks for a fourth entry in the vectors of offsets and counts. -/
theorem C97_extra_axis_undefined (f : File V) (T N M fine i : Int) (extra : String)
    (hd : f.dims = [T, 1, N, M]) (hl : f.labels = some ["time", "feed_id", "frequency", extra])
    (hn : f.nchans = some N) (hM : M ≠ 1) (hT : 0 ≤ T) (hf : 0 ≤ fine) (hi : 0 ≤ i) (junk : Int → V)
    (h : Heap V) :
    getDataShape f.toDataset = .ok [T, 1, N] ∧
    readData f [0, 0, fine * i] [T, 1, fine] junk h = .ub := by
  have hsh : getDataShape f.toDataset = .ok [T, 1, N] := by
    simp [getDataShape, hl, hd, hn, scanDims, H5Shape.step, H5Shape.finish, hM]
  refine ⟨hsh, ?_⟩
  have hm := Int.mul_nonneg hf hi
  unfold readData
  rw [hsh, Outcome.bind_ok]
  simp only [List.cons_ne_nil, if_false, Outcome.bind_ok]
  rw [if_neg (by simp; omega)]
  simp [hd]

/-- Concrete case: 16 time steps of 12 channels, four fine channels per coarse channel, the last
channel read after others. -/
def exFile : File ℚ where
  dims := [16, 1, 12]
  labels := some ["time", "feed_id", "frequency"]
  nchans := some 12
  sample := fun idx => 100 * idx.headD 0 + (idx.getD 2 0)
  mask := none

theorem exFile_opened : Opened ratOps id exFile (run ratOps id exScan [.read 2, .peek 0, .read 1]) :=
  ⟨true, ⟨8400, exHeader, some 12⟩, 4, exScan, _, exScan_opened, rfl, by decide, rfl, rfl, rfl⟩

example : ∃ c h' r, (read ratOps id (run ratOps id exScan [.read 2, .peek 0, .read 1]) 2).2 = .ok c ∧
    evalData exFile (fun _ => .ub) c (fun _ => 0) ⟨fun _ _ => none, 0⟩ = .ok (h', r) ∧
    h'.get r [3, 1] = some 309 := by
  have hs := run_same (o := ratOps) (devOk := id) [.read 2, .peek 0, .read 1] exScan
  have hn : (run ratOps id exScan [.read 2, .peek 0, .read 1]).num = 3 := by rw [hs.frame]; rfl
  have hf : (run ratOps id exScan [.read 2, .peek 0, .read 1]).fine = 4 := by rw [hs.frame]; rfl
  obtain ⟨c, h', r, h1, h2, -, h4, -⟩ := C97_channel_partial ratOps id exFile 16 12 (by decide)
    (by decide) (by decide) rfl rfl rfl _ exFile_opened 2 (by decide) (by rw [hn]; decide)
    (fun _ => .ub) (fun _ => 0) ⟨fun _ _ => none, 0⟩
  refine ⟨c, h', r, h1, h2, ?_⟩
  rw [h4 3 1 (by decide) (by decide) (by decide) (by rw [hf]; decide), hf]
  decide +kernel

/-! ## C98: masks -/

/-- **C98.** For a file without a mask, the mask of a window has the shape of its data and no flag is
set. Missing: files with a mask (`C98_mask_ignored`) and the default arguments
(`C98_default_rejected`). -/
theorem C98_no_mask_partial (f : File V) (zero : V) (offset : List Int) (x z : Int) (hx : 0 ≤ x)
    (hz : 0 ≤ z) (h : Heap V) :
    ∃ h' r, readMask f zero offset [x, 1, z] h = .ok (h', r) ∧ r.shape = [x, z] ∧
      (∀ t k, 0 ≤ t → t < x → 0 ≤ k → k < z → h'.get r [t, k] = some zero) ∧ h.Frame h' := by
  have hsq : squeeze (alloc h [x, 1, z] (fun _ => zero)).2 1 =
      .ok ⟨h.next, [⟨x, z, 0⟩, ⟨z, 1, 0⟩]⟩ := by
    simp [squeeze, alloc, denseDims]
  have he : readMask f zero offset [x, 1, z] h =
      .ok ((alloc h [x, 1, z] (fun _ => zero)).1, ⟨h.next, [⟨x, z, 0⟩, ⟨z, 1, 0⟩]⟩) := by
    unfold readMask
    simp only [hsq, Outcome.bind_ok, Outcome.pure_eq]
  refine ⟨_, _, he, rfl, fun t k t0 t1 k0 k1 => ?_, fun b hb => ?_⟩
  · have hv : ValidIdx [x, 1, z] [t, 0, k] :=
      .cons ⟨t0, t1⟩ (.cons ⟨by omega, by omega⟩ (.cons ⟨k0, k1⟩ .nil))
    have hb := dense_bounds hv
    have e : addr (denseDims [x, 1, z]).1 [t, 0, k] = t * z + k := by
      simp [denseDims, addr]
    rw [e] at hb
    have e2 : addr [⟨x, z, 0⟩, ⟨z, 1, 0⟩] [t, k] = t * z + k := by simp [addr]
    simp only [Heap.get, e2, alloc, if_true, Buf.ofFn]
    rw [if_pos hb]
  · have : b ≠ h.next := by omega
    simp [alloc, this]

/-- **Violation of C98.** The mask that a file holds is ignored: whatever it says, every flag that is
read is clear. -/
theorem C98_mask_ignored (f : File V) (zero : V) (m : List Int → V) (_hm : f.mask = some m)
    (a c x z t k : Int) (ht : 0 ≤ t) (htx : t < x) (hk : 0 ≤ k) (hkz : k < z)
    (hflag : m [a + t, 0, c + k] ≠ zero) (h : Heap V) :
    ∃ h' r, readMask f zero [a, 0, c] [x, 1, z] h = .ok (h', r) ∧
      h'.get r [t, k] ≠ some (m [a + t, 0, c + k]) := by
  obtain ⟨h', r, e1, -, e3, -⟩ := C98_no_mask_partial f zero [a, 0, c] x z (by omega) (by omega) h
  refine ⟨h', r, e1, ?_⟩
  rw [e3 t k ht htx hk hkz]
  exact fun e => hflag (Option.some.inj e).symm

/-- **Violation of C98.** With the default arguments, which stand for the whole file, `read_mask`
throws. -/
theorem C98_default_rejected (f : File V) (zero : V) (offset : List Int) (h : Heap V) :
    readMask f zero offset [] h = .throws .runtimeError := by
  simp [readMask, alloc, denseDims, squeeze]

end Bliss.H5Read
