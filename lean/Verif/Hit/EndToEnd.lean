import Verif.Hit.Recover
import Verif.Misc.H5Read
import Verif.File.Props
import Mathlib.Data.Rat.Encodable
import Mathlib.Data.Countable.Basic

/-!
# From the filterbank file to the hits file (C106)

Puts together the models of the steps that a search of one coarse channel runs through: opening a
file (bliss/core/scan.cpp lines 118-209), reading a coarse channel (lines 211-272), reading its
samples and mask (bliss/file_types/h5_filterbank_file.cpp lines 296-381), `integrate_drifts`
(bliss/drift_search/integrate_drifts.cpp lines 15-74), `hit_search`
(bliss/drift_search/hit_search.cpp lines 17-58), and writing and reading hits
(bliss/file_types/hits_file.cpp).
-/

namespace Bliss.Hit

open Bliss.Drift Bliss.Comp Bliss.Float Bliss.Nd Bliss.H5Read
open Bliss.Scan (Scan DOps Attrs openFile added)
open Bliss.File (Conv Framing Signal writeHits readHits)

/-- The mask that `read_mask` returns has one byte per sample; nothing of the file but the counts
enters it (h5_filterbank_file.cpp lines 334-381, `C98_mask_ignored`). -/
def flagsFile {V : Type} (f : H5Read.File V) : H5Read.File UInt8 where
  toDataset := f.toDataset
  sample := fun _ => 0
  mask := none

/-- The arguments `integrate_linear_rounded_bins_cpu` takes from the two arrays (its lines 25-46):
sizes, strides and the start of the data. Arrays of other than two axes are undefined here. -/
def inputOf {F : Type} (h : Heap F) (d : Arr) (hm : Heap UInt8) (m : Arr) : Outcome (Input F) :=
  match d.dims, m.dims with
  | [d0, d1], [m0, m1] =>
    if d0.size < 0 ∨ d1.size < 0 then .ub
    else .ok
      { spec := h.mem d.blk
        specOffset := d0.offset + d1.offset
        specStride0 := d0.stride
        specStride1 := d1.stride
        rfi := hm.mem m.blk
        rfiOffset := m0.offset + m1.offset
        rfiStride0 := m0.stride
        rfiStride1 := m1.stride
        timeSteps := d0.size.toNat
        numChannels := d1.size.toNat }
  | _, _ => .ub

section
variable {F Dev P : Type} [Zero F] [Add F] [Sub F] [Div F] [IntCast F] [LT F] [DecidableLT F]
  [OfNat F 2]

/-- The drift in Hz per second of a slope (`integrate_drifts.cpp:33`): `m * foff * 1e6 / tsamp`. -/
def driftHz (o : DOps Fl) (foff tsamp : Fl) (m : Fl) : Fl :=
  o.div (o.mul (o.mul m foff) (o.lit 1000000)) tsamp

/-- `hit_search(integrate_drifts(scan.read_coarse_channel(i)))` with a noise estimate of
(`noisePower`, `floor`), on a CPU. The mask is that of the window of the data
(`scan.cpp:232-237`). `heap` and `flags` are the memory before the call. -/
def searchChannel (R24 : Rounding 24) (R53 : Rounding 53) (ar : Arith F Fl) (o : DOps Fl)
    (devOk : Dev → Bool) (fltMin : F) (junkHit : Coord → Int) (junk : Int → F)
    (f : H5Read.File F) (s : Scan F Fl Dev P) (i : Int) (ro : RateOptions) (noisePower floor : F)
    (op : Options F) (heap : Heap F) (flags : Heap UInt8) : Outcome (List (Hit F Fl)) := do
  let c ← (Scan.read o devOk s i).2
  let (h1, d) ← evalData f (fun _ => .ub) c junk heap
  let (h2, m) ← (match c.data with
    | .file offset count => readMask (flagsFile f) 0 offset count flags
    | .other _ => .ub)
  let inp ← inputOf h1 d h2 m
  driftSearch R24 R53 (driftHz o c.hdr.foff c.hdr.tsamp) ar fltMin junkHit
    ⟨c.fch1, c.hdr.foff, c.hdr.tstart, c.hdr.tsamp, c.number⟩ inp ro noisePower floor op

end

/-! ## Specification -/

/-- The operations on doubles that take part round their exact result, once each. Infinities, which
results beyond the range of `double` become, are outside this description. -/
structure Doubles {F : Type} (R : Rounding 53) (ar : Arith F Fl) (o : DOps Fl) : Prop where
  add : ∀ x y, ar.add (.fin x) (.fin y) = .fin (R.r (x + y))
  mul : ∀ x y, ar.mul (.fin x) (.fin y) = .fin (R.r (x * y))
  ofInt : ∀ n : Int, ar.ofInt n = .fin (R.r n)
  sadd : ∀ x y, o.add (.fin x) (.fin y) = .fin (R.r (x + y))
  smul : ∀ x y, o.mul (.fin x) (.fin y) = .fin (R.r (x * y))
  sdiv : ∀ x y, y ≠ 0 → o.div (.fin x) (.fin y) = .fin (R.r (x / y))
  sofInt : ∀ n : Int, o.ofInt n = .fin (R.r n)
  lit : o.lit 1000000 = .fin 1000000

/-- A filterbank file of `T` time steps and `N` channels: channel `k` is centred on `fch1 + k * foff`
MHz and a time step lasts `tsamp` seconds. -/
structure Filterbank {F : Type} (f : H5Read.File F) (a : Attrs Fl) (T : Nat) (N : Int)
    (fch1 foff tsamp : ℚ) : Prop where
  dims : f.dims = [(T : Int), 1, N]
  labels : f.labels = some ["time", "feed_id", "frequency"]
  nchans : f.nchans = some N
  attr : a.nchans = some N
  channels : 0 < N ∧ N < 2147483648
  sampled : tsamp ≠ 0
  first : a.fch1 = .fin fch1
  width : a.hdr.foff = .fin foff
  length : a.hdr.tsamp = .fin tsamp

/-- The file holds, within its channels from `lo` up to `hi`, a tone that starts in channel `k`, drifts
by `d` channels in a straight line and is in channel `ch t` at time step `t`, where it is stronger
than every other channel; nothing else rises above the level `floor`. -/
structure HasTone {F : Type} [Field F] [LinearOrder F] (f : H5Read.File F) (T : Nat) (lo hi : Int)
    (k d : Int) (ch : Nat → Int) (floor : F) : Prop where
  line : ToneLine T k d ch
  start : lo ≤ k ∧ k < hi
  stop : lo ≤ k + d ∧ k + d < hi
  positive : ∀ t < T, 0 < f.at t (ch t)
  strongest : ∀ t < T, ∀ c : Int, lo ≤ c → c < hi → c ≠ ch t → f.at t c < f.at t (ch t)
  background : ∀ t < T, ∀ c : Int, lo ≤ c → c < hi → c ≠ ch t → f.at t c ≤ floor

/-- The searched drifts are among those for which the search is defined (C07), and none of them is
desmeared. -/
structure Searches (ro : RateOptions) (T : Nat) (fine : Int) : Prop where
  steps : 2 ≤ T ∧ (T : Int) - 1 ≤ 2 ^ 24
  step : ro.step ≠ 0
  range : ∀ i : Nat, (i : Int) < (ro.high - ro.low).tdiv ro.step →
      |ro.low + i * ro.step| < 2 ^ 22 ∧ 2 * |ro.low + i * ro.step| ≤ fine
  plain : ro.desmear = false ∨ ∀ i : Nat, (i : Int) < (ro.high - ro.low).tdiv ro.step →
      |ro.low + i * ro.step| ≤ (T : Int) - 1

/-! ## Proofs -/

/-- Reading a channel: the window, the header and the frequency of its first fine channel. -/
theorem open_channel {F Dev P : Type} (o : DOps Fl) (devOk : Dev → Bool) {f : H5Read.File F}
    {a : Attrs Fl} {T : Nat} {N : Int} {φ δ τ : ℚ} (hf : Filterbank f a T N φ δ τ) {dev : Dev}
    (hdev : devOk dev = true) {g : Int} (hg : 0 ≤ g) {s0 : Scan F Fl Dev P}
    (hopen : openFile o dev a (H5Shape.getDataShape f.toDataset) g = .ok s0)
    {ops : List (Scan.Op F Fl Dev P)} (hops : added ops = []) {i : Int} (hi0 : 0 ≤ i)
    (hi : i < s0.num) :
    ∃ c, (Scan.read o devOk (Scan.run o devOk s0 ops) i).2 = .ok c ∧
      c.data = .file [0, 0, s0.fine * i] [(T : Int), 1, s0.fine] ∧ c.number = i ∧
      c.hdr = a.hdr ∧ c.fch1 = o.add a.fch1 (o.mul a.hdr.foff (o.ofInt (s0.fine * i))) ∧
      0 ≤ s0.fine ∧ s0.fine * i + s0.fine ≤ N := by
  have hs := shape_usual f T N hf.dims hf.labels hf.nchans
  rw [hs] at hopen
  obtain ⟨p1, p2, p3, p4, p5, p6, p7, p8, p9, p10⟩ :=
    openFile_props o dev a T 1 N N g hf.attr hf.channels.1 hg s0 hopen
  have hsame := Scan.run_same (o := o) (devOk := devOk) ops s0
  rw [hops, List.append_nil] at hsame
  have hfr : Scan.run o devOk s0 ops = { s0 with cache := (Scan.run o devOk s0 ops).cache } :=
    hsame.frame
  have hN := hf.channels.2
  have hr : Scan.Readable devOk (Scan.run o devOk s0 ops) := by
    rw [hfr]
    exact ⟨⟨T, 1, N, [], p3⟩, by rw [p5]; exact hdev, p7, by show s0.fine * s0.num < _; omega⟩
  have hfine : (Scan.run o devOk s0 ops).fine = s0.fine := by rw [hfr]
  have hnum : (Scan.run o devOk s0 ops).num = s0.num := by rw [hfr]
  have hhdr : (Scan.run o devOk s0 ops).hdr = s0.hdr := by rw [hfr]
  have hfch : (Scan.run o devOk s0 ops).fch1 = s0.fch1 := by rw [hfr]
  obtain ⟨c, hc, hd, h1, _, _, h2, h3⟩ := (Scan.C30_tiling o devOk T 1 N _ hr
    ⟨s0, ops, p1, p2, p3, p4, hops, rfl⟩).1 i hi0 (by rw [hnum]; exact hi)
  rw [hfine] at hd
  rw [hhdr, p10] at h2
  rw [hfine, hhdr, hfch, p9, p10] at h3
  refine ⟨c, hc, hd, h1, h2, h3, p7, ?_⟩
  have : s0.fine * (i + 1) ≤ s0.fine * s0.num := Int.mul_le_mul_of_nonneg_left (by omega) p7
  rw [Int.mul_add, Int.mul_one] at this
  omega

/-- The window of the file and its mask, in memory. -/
theorem window_arrays {F : Type} (f : H5Read.File F) (T : Nat) (N : Int)
    (hd : f.dims = [(T : Int), 1, N])
    (hl : f.labels = some ["time", "feed_id", "frequency"]) (hn : f.nchans = some N) (a w : Int)
    (ha : 0 ≤ a) (hw : 0 ≤ w) (haw : a + w ≤ N) (junk : Int → F) (h : Heap F) (hm : Heap UInt8) :
    ∃ h1 h2, readData f [0, 0, a] [(T : Int), 1, w] junk h =
        .ok (h1, ⟨h.next, [⟨T, w, 0⟩, ⟨w, 1, 0⟩]⟩) ∧
      readMask (flagsFile f) 0 [0, 0, a] [(T : Int), 1, w] hm =
        .ok (h2, ⟨hm.next, [⟨T, w, 0⟩, ⟨w, 1, 0⟩]⟩) ∧
      ∀ (t : Nat) (c : Int), t < T → 0 ≤ c → c < w →
        h1.mem h.next (t * w + c) = some (f.at t (a + c)) ∧ h2.mem hm.next (t * w + c) = some 0 := by
  have hsh := shape_usual f T N hd hl hn
  obtain ⟨h1, d, e1, e2, e3, -⟩ := readData_window f T 1 N hd hsh 0 0 a T w le_rfl le_rfl ha
    (by omega) hw (by omega) (by omega) haw junk h
  obtain ⟨h2, m, g1, g2, g3, -⟩ := C98_no_mask_partial (flagsFile f) 0 [0, 0, a] T w (by omega) hw hm
  have hsq : squeeze (alloc h [(T : Int), 1, w] junk).2 1 =
      .ok ⟨h.next, [⟨T, w, 0⟩, ⟨w, 1, 0⟩]⟩ := by
    simp [squeeze, alloc, denseDims]
  have hd' : d = ⟨h.next, [⟨T, w, 0⟩, ⟨w, 1, 0⟩]⟩ := by
    have e := e1
    unfold readData at e
    rw [hsh] at e
    simp only [Outcome.bind_ok, List.cons_ne_nil, if_false] at e
    rw [if_neg (by simp; omega)] at e
    split at e
    · cases e
    · split at e
      · cases e
      · rw [hsq] at e
        simp only [Outcome.bind_ok, Outcome.pure_eq, Outcome.ok.injEq, Prod.mk.injEq] at e
        exact e.2.symm
  have hm' : m = ⟨hm.next, [⟨T, w, 0⟩, ⟨w, 1, 0⟩]⟩ := by
    have e := g1
    have hsq' : squeeze (alloc hm [(T : Int), 1, w] (fun _ => (0 : UInt8))).2 1 =
        .ok ⟨hm.next, [⟨T, w, 0⟩, ⟨w, 1, 0⟩]⟩ := by
      simp [squeeze, alloc, denseDims]
    unfold readMask at e
    simp only [hsq', Outcome.bind_ok, Outcome.pure_eq, Outcome.ok.injEq, Prod.mk.injEq] at e
    exact e.2.symm
  subst hd' hm'
  refine ⟨h1, h2, e1, g1, fun t c ht hc hcw => ⟨?_, ?_⟩⟩
  · have := e3 t c (by omega) (by omega) hc hcw
    simp only [Heap.get, addr, File.at, named, hl] at this ⊢
    simpa using this
  · have := g3 t c (by omega) (by omega) hc hcw
    simp only [Heap.get, addr] at this
    simpa using this

/-- The window of the file as the integrator gets it. -/
theorem window_input {F : Type} (f : H5Read.File F) (T : Nat) (N : Int)
    (hd : f.dims = [(T : Int), 1, N])
    (hl : f.labels = some ["time", "feed_id", "frequency"]) (hn : f.nchans = some N) (a w : Int)
    (ha : 0 ≤ a) (hw : 0 ≤ w) (haw : a + w ≤ N) (junk : Int → F) (h : Heap F) (hm : Heap UInt8) :
    ∃ h1 d h2 m inp, readData f [0, 0, a] [(T : Int), 1, w] junk h = .ok (h1, d) ∧
      readMask (flagsFile f) 0 [0, 0, a] [(T : Int), 1, w] hm = .ok (h2, m) ∧
      inputOf h1 d h2 m = .ok inp ∧ (inp.specOffset = 0 ∧ inp.rfiOffset = 0) ∧
      inp.timeSteps = T ∧ (inp.numChannels : Int) = w ∧
      Holds inp (fun t c => f.at t (a + c)) (fun _ _ => 0) := by
  obtain ⟨h1, h2, e1, g1, e3⟩ := window_arrays f T N hd hl hn a w ha hw haw junk h hm
  refine ⟨h1, _, h2, _, _, e1, g1, by simp only [inputOf]; rw [if_neg (by omega)], ⟨rfl, rfl⟩,
    by simp, by simp; omega, ⟨?_, ?_⟩⟩
  · intro t c ht hc hcw
    have ht' : t < T := by simpa using ht
    have hcw' : c < w := by simpa [hw] using hcw
    simpa using (e3 t c ht' hc hcw').1
  · intro t c ht hc hcw
    have ht' : t < T := by simpa using ht
    have hcw' : c < w := by simpa [hw] using hcw
    simpa using (e3 t c ht' hc hcw').2

/-- Four roundings between the attributes of the file and the frequency of a hit. -/
theorem frequency_error (R : Rounding 53) (φ δ : ℚ) (n c : ℕ) :
    |R.r (R.r (φ + R.r (δ * n)) + R.r (δ * c)) - (φ + δ * (n + c : ℕ))| ≤
      2 ^ (-50 : ℤ) * (|φ| + |δ| * (n + c : ℕ)) := by
  obtain ⟨u, hu⟩ : ∃ u : ℚ, u = 2 ^ (1 - ((53 : ℕ) : ℤ)) := ⟨_, rfl⟩
  have hu0 : 0 < u := by rw [hu]; norm_num
  have hu1 : u ≤ 1 / 100 := by rw [hu]; norm_num
  have h4 : (2 : ℚ) ^ (-50 : ℤ) = 4 * u := by rw [hu]; norm_num
  have e1 := R.err (δ * n)
  have e2 := R.err (φ + R.r (δ * n))
  have e3 := R.err (δ * c)
  have e4 := R.err (R.r (φ + R.r (δ * n)) + R.r (δ * c))
  rw [← hu] at e1 e2 e3 e4
  have n1 : |δ * n| = |δ| * n := by rw [abs_mul, Nat.abs_cast]
  have n3 : |δ * c| = |δ| * c := by rw [abs_mul, Nat.abs_cast]
  rw [n1] at e1
  rw [n3] at e3
  generalize R.r (R.r (φ + R.r (δ * n)) + R.r (δ * c)) = a4 at *
  generalize R.r (φ + R.r (δ * n)) = a2 at *
  generalize R.r (δ * n) = a1 at *
  generalize R.r (δ * c) = a3 at *
  have A0 : 0 ≤ |φ| := abs_nonneg _
  have A1 : 0 ≤ |δ| * n := by positivity
  have A3 : 0 ≤ |δ| * c := by positivity
  have b1 : |a1| ≤ |δ| * n * (1 + u) := by
    have := abs_sub_abs_le_abs_sub a1 (δ * n)
    rw [n1] at this
    linarith
  have b2 : |φ + a1| ≤ |φ| + |δ| * n * (1 + u) := (abs_add_le _ _).trans (by linarith)
  have b2' : |a2| ≤ (|φ| + |δ| * n * (1 + u)) * (1 + u) := by
    have := abs_sub_abs_le_abs_sub a2 (φ + a1)
    nlinarith
  have b3 : |a3| ≤ |δ| * c * (1 + u) := by
    have := abs_sub_abs_le_abs_sub a3 (δ * c)
    rw [n3] at this
    linarith
  have b4 : |a2 + a3| ≤ (|φ| + |δ| * n * (1 + u)) * (1 + u) + |δ| * c * (1 + u) :=
    (abs_add_le _ _).trans (by linarith)
  have c2 : |a2 - (φ + a1)| ≤ (|φ| + |δ| * n * (1 + u)) * u :=
    e2.trans (mul_le_mul_of_nonneg_right b2 hu0.le)
  have c4 : |a4 - (a2 + a3)| ≤ ((|φ| + |δ| * n * (1 + u)) * (1 + u) + |δ| * c * (1 + u)) * u :=
    e4.trans (mul_le_mul_of_nonneg_right b4 hu0.le)
  have key : a4 - (φ + δ * (n + c : ℕ)) =
      (a4 - (a2 + a3)) + (a2 - (φ + a1)) + (a1 - δ * n) + (a3 - δ * c) := by
    push_cast; ring
  rw [key, h4]
  have t1 := abs_add_le ((a4 - (a2 + a3)) + (a2 - (φ + a1)) + (a1 - δ * n)) (a3 - δ * c)
  have t2 := abs_add_le ((a4 - (a2 + a3)) + (a2 - (φ + a1))) (a1 - δ * n)
  have t3 := abs_add_le (a4 - (a2 + a3)) (a2 - (φ + a1))
  have hu2 : u * u ≤ u / 100 := by nlinarith
  have hu3 : u * u * u ≤ u / 100 := by nlinarith
  have f1 : ((|φ| + |δ| * n * (1 + u)) * (1 + u) + |δ| * c * (1 + u)) * u +
      (|φ| + |δ| * n * (1 + u)) * u + |δ| * n * u + |δ| * c * u ≤
      4 * u * (|φ| + |δ| * n + |δ| * c) := by
    nlinarith [mul_le_mul_of_nonneg_left hu2 A0, mul_le_mul_of_nonneg_left hu2 A1,
      mul_le_mul_of_nonneg_left hu2 A3, mul_le_mul_of_nonneg_left hu3 A1,
      mul_nonneg A0 hu0.le, mul_nonneg A1 hu0.le, mul_nonneg A3 hu0.le]
  push_cast
  have f2 : 4 * u * (|φ| + |δ| * n + |δ| * c) = 4 * u * (|φ| + |δ| * (↑n + ↑c)) := by ring
  linarith

/-- One rounding to 24 bits and three to 53 between the drift and the rate of a hit. -/
theorem rate_error (R24 : Rounding 24) (R : Rounding 53) (x δ τ : ℚ) :
    |R.r (R.r (R.r (R24.r x * δ) * 1000000) / τ) - x * δ * 1000000 / τ| ≤
      2 ^ (-22 : ℤ) * |x * δ * 1000000 / τ| := by
  obtain ⟨u, hu⟩ : ∃ u : ℚ, u = 2 ^ (1 - ((53 : ℕ) : ℤ)) := ⟨_, rfl⟩
  obtain ⟨w, hw⟩ : ∃ w : ℚ, w = 2 ^ (1 - ((24 : ℕ) : ℤ)) := ⟨_, rfl⟩
  have rel : ∀ {p : ℕ} (S : Rounding p) (y : ℚ), ∃ e : ℚ, |e| ≤ 2 ^ (1 - (p : ℤ)) ∧
      S.r y = y * (1 + e) := by
    intro p S y
    by_cases hy : y = 0
    · exact ⟨0, by rw [abs_zero]; exact (zpow_pos (by norm_num) _).le, by rw [hy, S.zero]; ring⟩
    · refine ⟨(S.r y - y) / y, ?_, by field_simp; ring⟩
      rw [abs_div, div_le_iff₀ (abs_pos.2 hy), mul_comm]
      exact S.err y
  obtain ⟨e0, b0, h0⟩ := rel R24 x
  obtain ⟨e1, b1, h1⟩ := rel R (R24.r x * δ)
  obtain ⟨e2, b2, h2⟩ := rel R (R.r (R24.r x * δ) * 1000000)
  obtain ⟨e3, b3, h3⟩ := rel R (R.r (R.r (R24.r x * δ) * 1000000) / τ)
  rw [← hw] at b0
  rw [← hu] at b1 b2 b3
  rw [h3, h2, h1, h0]
  have key : x * (1 + e0) * δ * (1 + e1) * 1000000 * (1 + e2) / τ * (1 + e3) -
      x * δ * 1000000 / τ =
      (x * δ * 1000000 / τ) * ((1 + e0) * ((1 + e1) * (1 + e2) * (1 + e3)) - 1) := by ring
  rw [key, abs_mul, mul_comm]
  refine mul_le_mul_of_nonneg_right ?_ (abs_nonneg _)
  have hu' : u = 1 / 4503599627370496 := by rw [hu]; norm_num
  have hw' : w = 1 / 8388608 := by rw [hw]; norm_num
  have grow : ∀ y e b : ℚ, |y - 1| ≤ b → b ≤ 1 → |e| ≤ u → |y * (1 + e) - 1| ≤ b + 2 * u := by
    intro y e b hy hb he
    have : y * (1 + e) - 1 = (y - 1) + e + (y - 1) * e := by ring
    rw [this]
    have q1 := abs_add_le ((y - 1) + e) ((y - 1) * e)
    have q2 := abs_add_le (y - 1) e
    rw [abs_mul] at q1
    have q3 : |y - 1| * |e| ≤ 1 * u :=
      mul_le_mul (hy.trans hb) he (abs_nonneg _) (by norm_num)
    linarith
  have s0 : |(1 + e0) - 1| ≤ w := by rw [show (1 + e0) - 1 = e0 by ring]; exact b0
  have s1 := grow _ e1 _ s0 (by rw [hw']; norm_num) b1
  have s2 := grow _ e2 _ s1 (by rw [hw', hu']; norm_num) b2
  have s3 := grow _ e3 _ s2 (by rw [hw', hu']; norm_num) b3
  rw [show (1 + e0) * ((1 + e1) * (1 + e2) * (1 + e3)) = (1 + e0) * (1 + e1) * (1 + e2) * (1 + e3)
    by ring]
  refine s3.trans ?_
  rw [hw', hu']
  norm_num

section
variable {F : Type} [Zero F] [Add F] [Sub F] [Div F] [IntCast F] [LT F] [DecidableLT F] [OfNat F 2]

/-- The hits of a search are narrower than the band. -/
theorem driftSearch_binwidth {R24 : Rounding 24} {R53 : Rounding 53} {hz : Fl → Fl}
    {ar : Arith F Fl} {fltMin : F} {junk : Coord → Int} {cc : Channel Fl} {inp : Input F}
    {ro : RateOptions} {noisePower floor : F} {o : Options F} (hm : o.method = .connectedComponents)
    (htrans : ∀ a b c : F, a < b → b < c → a < c) (hirr : ∀ a : F, ¬ a < a)
    (hhalf : ∀ v : F, o.thr < v → o.thr / 2 < v) (hmin : ∀ v : F, o.thr < v → fltMin < v)
    {hs : List (Hit F Fl)}
    (h : driftSearch R24 R53 hz ar fltMin junk cc inp ro noisePower floor o = .ok hs) :
    ∀ x ∈ hs, 0 ≤ x.binwidth ∧ x.binwidth < inp.numChannels := by
  unfold driftSearch at h
  cases hi : integrateDrifts R24 R53 hz inp ro with
  | throws e => rw [hi] at h; cases h
  | ub => rw [hi] at h; cases h
  | ok r =>
    obtain ⟨a, rates⟩ := r
    rw [hi, Outcome.bind_ok] at h
    obtain ⟨cs, hs', e1, e2, e3, -⟩ := hitSearch_covers ar fltMin junk cc (planeOf inp a rates)
      noisePower floor o hm htrans hirr (by simp [planeOf]) hhalf hmin
    dsimp only at h
    rw [e2] at h
    obtain rfl := Outcome.ok.inj h
    intro x hx
    obtain ⟨j, hj, rfl⟩ := List.getElem_of_mem hx
    have hlen := e3.length_eq
    have hd := (List.forall₂_iff_get.1 e3).2 j (by omega) hj
    simp only [List.get_eq_getElem] at hd
    rw [hd.bandwidth.1]
    have hmem : cs[j]'(by omega) ∈ cs := List.getElem_mem _
    obtain ⟨lo, l1, l2, l3, l4, l5, l6, l7⟩ :=
      Comp.C15_extent_brackets_peak_partial _ fltMin hhalf hmin e1 hmem
    have g : (toSearch ar (planeOf inp a rates) noisePower floor o).grid.chans = inp.numChannels := rfl
    rw [g] at l7
    omega

end

theorem readHits_whole {F D : Type} {C : Conv F D} (hC : C.Lawful) {fr : Framing (Signal F D)}
    (hf : fr.LawfulOn File.Signal.Fits) (hs : List (Hit F D)) (hb : ∀ h ∈ hs, |h.binwidth| ≤ 2 ^ 24) :
    ∃ l, readHits C fr (writeHits C fr hs) = .ok l ∧
      List.Forall₂ (fun h h' => h'.startFreqMHz = h.startFreqMHz ∧ h'.driftRate = h.driftRate ∧
        h'.snr = h.snr ∧ h'.bandwidth = h.bandwidth) hs l := by
  obtain ⟨j, hj, h1, h2, h3⟩ := File.C39_truncated_file (C := C) hf hs (writeHits C fr hs).length
  rw [List.take_of_length_le le_rfl] at h3
  have hall : j = hs.length := by
    by_contra hne
    have hlt : j < hs.length := by omega
    have h4 := h2 hlt
    have h5 : (writeHits C fr (hs.take (j + 1))).length ≤ (writeHits C fr hs).length := by
      have : hs = hs.take (j + 1) ++ hs.drop (j + 1) := (List.take_append_drop _ _).symm
      conv_rhs => rw [this]
      simp only [File.writeHits, File.writeAll, List.map_append, List.flatMap_append,
        List.length_append]
      omega
    omega
  rw [hall, List.take_of_length_le le_rfl] at h3
  rw [h3]
  clear h1 h2 h3 hj hall
  induction hs with
  | nil => exact ⟨[], rfl, .nil⟩
  | cons h t ih =>
    obtain ⟨l, e1, e2⟩ := ih fun x hx => hb x (by simp [hx])
    have hok : ∃ h', File.ofSignal C (File.toSignal C h) = .ok h' := by
      unfold File.ofSignal File.toSignal
      dsimp only
      rw [hC.int _ (hb h (by simp))]
      exact ⟨_, rfl⟩
    obtain ⟨h', hh⟩ := hok
    refine ⟨h' :: l, ?_, .cons ?_ e2⟩
    · simp only [File.mapAll, hh, e1, Outcome.bind_ok, Outcome.pure_eq]
    · exact File.C37_kept hh

section
variable {F Dev P : Type} [Field F] [LinearOrder F] [IsStrictOrderedRing F]

/-- **C106.** Take any filterbank file, opened with any number of fine channels per coarse channel and
read from in any way before, and a coarse channel in which the file holds a tone that starts in file
channel `k` and drifts by `d` channels, one of the searched drifts. If the tone's SNR is above the
threshold, then the search of that coarse channel returns, and the hits written to a file and read
back contain the tone: its start frequency is that of channel `k`, `fch1 + k * foff`, up to `2⁻⁵⁰` of
the magnitudes involved; its drift is `d * foff` MHz per `(T - 1)` time steps, in Hz per second, up to
`2⁻²²` of it; its SNR is that of the tone's mean power, and no hit has a higher one.

Missing: desmeared drifts, coarse channels of more than `2²⁴` fine channels, and float rounding of the
sums (`F` is an ordered field); the tone must be the strongest signal in its coarse channel at every
time step. -/
theorem C106_tone_in_file_partial (R24 : Rounding 24) (R53 : Rounding 53) (ar : Arith F Fl)
    (o : DOps Fl) (hdbl : Doubles R53 ar o) (devOk : Dev → Bool) (fltMin : F)
    (junkHit : Coord → Int) (junk : Int → F) (heap : Heap F) (flags : Heap UInt8)
    {f : H5Read.File F} {a : Attrs Fl} {T : Nat} {N : Int} {fch1 foff tsamp : ℚ}
    (hf : Filterbank f a T N fch1 foff tsamp) {dev : Dev} (hdev : devOk dev = true) {fine : Int}
    (hfine : 0 ≤ fine) {s : Scan F Fl Dev P}
    (hopen : openFile o dev a (H5Shape.getDataShape f.toDataset) fine = .ok s)
    {ops : List (Scan.Op F Fl Dev P)} (hops : added ops = []) {i : Int} (hi : 0 ≤ i ∧ i < s.num)
    (hsize : s.fine ≤ 2 ^ 24)
    {ro : RateOptions} (hro : Searches ro T s.fine) {k d : Int} {j : Nat}
    (hj : (j : Int) < (ro.high - ro.low).tdiv ro.step) (hd : d = ro.low + j * ro.step)
    {ch : Nat → Int} {noisePower floor : F}
    (htone : HasTone f T (s.fine * i) (s.fine * (i + 1)) k d ch floor) (hfloor : 0 ≤ floor)
    (op : Options F) (hm : op.method = .connectedComponents)
    (hnoise : 0 < driftNoise ar noisePower T) (hmin : 0 ≤ fltMin) (hthr : fltMin ≤ op.thr)
    (habove : op.thr < ((∑ t ∈ Finset.range T, f.at t (ch t)) / (T : F) - floor) /
      driftNoise ar noisePower T)
    {C : Conv F Fl} (hC : C.Lawful) {fr : Framing (Signal F Fl)}
    (hfr : fr.LawfulOn File.Signal.Fits) :
    ∃ (hs l : List (Hit F Fl)) (h : Hit F Fl) (freq rate : ℚ),
      searchChannel R24 R53 ar o devOk fltMin junkHit junk f (Scan.run o devOk s ops) i ro noisePower
        floor op heap flags = .ok hs ∧
      readHits C fr (writeHits C fr hs) = .ok l ∧ h ∈ l ∧
      h.startFreqMHz = .fin freq ∧ h.driftRate = .fin rate ∧
      |freq - (fch1 + foff * k)| ≤ 2 ^ (-50 : ℤ) * (|fch1| + |foff| * k) ∧
      |rate - d * foff * 1000000 / (((T : ℚ) - 1) * tsamp)| ≤
        2 ^ (-22 : ℤ) * |d * foff * 1000000 / (((T : ℚ) - 1) * tsamp)| ∧
      h.snr = ((∑ t ∈ Finset.range T, f.at t (ch t)) / (T : F) - floor) /
        driftNoise ar noisePower T ∧
      ∀ h' ∈ l, h'.snr ≤ h.snr := by
  obtain ⟨c, c1, c2, c3, c4, c5, c6, c7⟩ := open_channel o devOk hf hdev hfine hopen hops hi.1 hi.2
  have hm0 : 0 ≤ s.fine * i := Int.mul_nonneg c6 hi.1
  have hm1 : s.fine * (i + 1) = s.fine * i + s.fine := by ring
  obtain ⟨h1, dd, h2, m, inp, e1, e2, e3, e4, e5, e6, e7⟩ := window_input f T N hf.dims hf.labels
    hf.nchans (s.fine * i) s.fine hm0 c6 c7 junk heap flags
  obtain ⟨b1, b2⟩ := htone.start
  obtain ⟨b3, b4⟩ := htone.stop
  rw [hm1] at b2 b4
  have hline : ToneLine inp.timeSteps (k - s.fine * i) d (fun t => ch t - s.fine * i) := by
    rw [e5]
    refine ⟨fun t ht => ?_⟩
    have := htone.line.near t ht
    push_cast
    rwa [show (ch t : ℚ) - s.fine * i - (k - s.fine * i + d * t / ((T : ℚ) - 1)) =
      (ch t : ℚ) - (k + d * t / ((T : ℚ) - 1)) by ring]
  have hback : ∀ c : Int, s.fine * i + (c - s.fine * i) = c := fun _ => by ring
  have hdom : Dominates inp.numChannels inp.timeSteps (fun t c => f.at t (s.fine * i + c))
      (fun t => ch t - s.fine * i) := by
    rw [e5]
    refine ⟨fun t ht c h0 hc hne => ?_, fun t ht => ?_⟩
    · rw [e6] at hc
      simp only [hback]
      exact htone.strongest t ht _ (by omega) (by omega) (by omega)
    · simp only [hback]
      exact htone.positive t ht
  obtain ⟨hs, h, q1, q2, q3, q4, q5, q6, q7, q8⟩ := C87_tone_recovered_partial R24 R53
    (driftHz o c.hdr.foff c.hdr.tsamp) ar fltMin junkHit
    ⟨c.fch1, c.hdr.foff, c.hdr.tstart, c.hdr.tsamp, c.number⟩ e7 e4 (ro := ro)
    (by rw [e5]; exact hro.steps.1) (by rw [e5]; exact hro.steps.2) hro.step
    (fun x hx => by rw [e6]; exact hro.range x hx) (by rw [e5]; exact hro.plain) hj hd
    ⟨by omega, by rw [e6]; omega⟩ ⟨by omega, by rw [e6]; omega⟩ hline hdom noisePower floor op hm
    (by rw [e5]; exact hnoise) hmin hthr (by rw [e5]; simpa only [hback] using habove)
  have hhalf : ∀ v : F, op.thr < v → op.thr / 2 < v := fun v hv =>
    lt_of_le_of_lt (half_le_self (hmin.trans hthr)) hv
  have hlow : ∀ v : F, op.thr < v → fltMin < v := fun v hv => lt_of_le_of_lt hthr hv
  have hbw := driftSearch_binwidth hm (fun _ _ _ => lt_trans) (fun _ => lt_irrefl _) hhalf hlow q1
  rw [e6] at hbw
  obtain ⟨l, r1, r2⟩ := readHits_whole hC hfr hs fun x hx => by
    have := hbw x hx
    rw [abs_of_nonneg this.1]
    omega
  obtain ⟨q9, q10⟩ := q8 (fun t ht x h0 hx hne => by
    rw [e5] at ht
    rw [e6] at hx
    exact htone.background t ht _ (by omega) (by omega) (by omega)) hfloor
  obtain ⟨n, hn⟩ := Int.eq_ofNat_of_zero_le hm0
  obtain ⟨u, hu⟩ := Int.eq_ofNat_of_zero_le (show 0 ≤ k - s.fine * i by omega)
  have hN := hf.channels.2
  -- the stored hit
  obtain ⟨x, hx, rfl⟩ := List.getElem_of_mem q2
  have hlen := r2.length_eq
  have hkept := (List.forall₂_iff_get.1 r2).2 x hx (by omega)
  simp only [List.get_eq_getElem] at hkept
  obtain ⟨k1, k2, k3, -⟩ := hkept
  have hfreq : hs[x].startFreqMHz =
      .fin (R53.r (R53.r (fch1 + R53.r (foff * n)) + R53.r (foff * u))) := by
    rw [q10]
    dsimp only
    rw [c5, c4, hf.first, hf.width, hdbl.sofInt, hdbl.smul, hdbl.sadd, hdbl.ofInt, hdbl.mul, hdbl.add,
      hu, hn, R53.int _ (by rw [Nat.abs_cast]; omega), R53.int _ (by rw [Nat.abs_cast]; omega)]
    simp
  have hrate : hs[x].driftRate = .fin (R53.r (R53.r (R53.r (R24.r ((d : ℚ) / ((T : ℚ) - 1)) * foff) *
      1000000) / tsamp)) := by
    rw [q5, e5, driftHz, c4, hf.width, hf.length, hdbl.lit, hdbl.smul, hdbl.smul,
      hdbl.sdiv _ _ hf.sampled]
  refine ⟨hs, l, l[x]'(by omega), _, _, ?_, r1, List.getElem_mem _, k1.trans hfreq, k2.trans hrate,
    ?_, ?_, ?_, ?_⟩
  · unfold searchChannel
    rw [c1, Outcome.bind_ok]
    unfold evalData
    rw [c2]
    simp only [e1, e2, e3, Outcome.bind_ok]
    exact q1
  · have hk : (k : ℚ) = ((n + u : ℕ) : ℚ) := by
      have : k = ((n + u : ℕ) : Int) := by
        push_cast; omega
      rw [this]; simp
    rw [hk]
    exact frequency_error R53 fch1 foff n u
  · have e : (d : ℚ) * foff * 1000000 / (((T : ℚ) - 1) * tsamp) =
        (d : ℚ) / ((T : ℚ) - 1) * foff * 1000000 / tsamp := by
      rw [div_mul_eq_mul_div, div_mul_eq_mul_div, div_div]
    rw [e]
    exact rate_error R24 R53 _ _ _
  · rw [k3, q6, e5]
    simp only [hback]
  · intro h' hh'
    obtain ⟨y, hy, rfl⟩ := List.getElem_of_mem hh'
    have hkept := (List.forall₂_iff_get.1 r2).2 y (by omega) hy
    simp only [List.get_eq_getElem] at hkept
    rw [hkept.2.2.1, k3]
    exact (q7 _ (List.getElem_mem _)).1

end

section
variable {F Dev P : Type} [Zero F] [Add F] [Sub F] [Div F] [IntCast F] [LT F] [DecidableLT F]
  [OfNat F 2]

/-- Every hit of a search is the drifting line that it names, with that line's SNR. -/
theorem driftSearch_lines (R24 : Rounding 24) (R53 : Rounding 53) (hz : Fl → Fl)
    (ar : Arith F Fl) (fltMin : F) (junk : Coord → Int) (cc : Channel Fl) {inp : Input F}
    {grid : Nat → Int → F} {mask : Nat → Int → UInt8} (hin : Holds inp grid mask)
    (hview : inp.specOffset = 0 ∧ inp.rfiOffset = 0) {ro : RateOptions} (hT : 2 ≤ inp.timeSteps)
    (hT' : (inp.timeSteps : Int) - 1 ≤ 2 ^ 24) (hstep : ro.step ≠ 0)
    (hne : 0 < (ro.high - ro.low).tdiv ro.step)
    (hrange : ∀ i : Nat, (i : Int) < (ro.high - ro.low).tdiv ro.step →
      |ro.low + i * ro.step| < 2 ^ 22 ∧ 2 * |ro.low + i * ro.step| ≤ inp.numChannels)
    (noisePower floor : F) (o : Options F) (hm : o.method = .connectedComponents)
    (htrans : ∀ a b c : F, a < b → b < c → a < c) (hirr : ∀ a : F, ¬ a < a)
    (hhalf : ∀ v : F, o.thr < v → o.thr / 2 < v) (hmin : ∀ v : F, o.thr < v → fltMin < v) :
    ∃ (hs : List (Hit F Fl)) (desmear : Nat → Int) (off : Nat → Nat → Int),
      driftSearch R24 R53 hz ar fltMin junk cc inp ro noisePower floor o = .ok hs ∧
      (∀ i : Nat, (i : Int) < (ro.high - ro.low).tdiv ro.step →
        StraightPath (ro.low + i * ro.step) inp.timeSteps (2 ^ (-23 : ℤ) + 2 ^ (-51 : ℤ)) (off i) ∧
        1 ≤ desmear i) ∧
      ∀ h ∈ hs, ∃ i : Nat, h.rateIndex = i ∧ (i : Int) < (ro.high - ro.low).tdiv ro.step ∧
        0 ≤ h.startFreqIndex ∧ h.startFreqIndex < inp.numChannels ∧
        h.snr = (pathSum grid (desmear i)
            (path inp.numChannels inp.timeSteps (decide (0 ≤ ro.low + i * ro.step))
              (ro.low + i * ro.step) (desmear i).toNat (off i) h.startFreqIndex) /
            ((inp.timeSteps : Int) : F) - floor) / driftNoise ar noisePower (inp.timeSteps * desmear i) ∧
        o.thr < h.snr := by
  obtain ⟨a, rates, off, h1, h2, h3⟩ :=
    C07_defined_partial R24 R53 hz hin hview hT hT' hstep hne hrange
  obtain ⟨cs, hs, _, e2, e3, _⟩ := hitSearch_covers ar fltMin junk cc (planeOf inp a rates)
    noisePower floor o hm htrans hirr (by simp [planeOf]) hhalf hmin
  refine ⟨hs, fun i => match rates[i]? with | some r => r.desmear | none => 1, off, ?_, ?_, ?_⟩
  · simp only [driftSearch, h1, Outcome.bind_ok]; exact e2
  · intro i hi
    have hil : i < rates.length := by omega
    have hget := List.getElem?_eq_getElem hil
    obtain ⟨_, g2, g3, g4, _⟩ := h3 i _ hget
    simp only [hget, ← g2]
    exact ⟨g4, g3⟩
  · intro h hh
    obtain ⟨j, hj, rfl⟩ := List.getElem_of_mem hh
    have hlen := e3.length_eq
    have hd := (List.forall₂_iff_get.1 e3).2 j (by omega) hj
    simp only [List.get_eq_getElem] at hd
    obtain ⟨x1, x2, x3, x4⟩ := hd.inPlane
    obtain ⟨i, hi⟩ := Int.eq_ofNat_of_zero_le x1
    dsimp only at hi x3
    have x2' : hs[j].rateIndex < (rates.length : Int) := x2
    have x4' : hs[j].startFreqIndex < (inp.numChannels : Int) := x4
    have hil : i < rates.length := by omega
    have hget := List.getElem?_eq_getElem hil
    obtain ⟨_, g2, g3, g4, g5⟩ := h3 i _ hget
    have hcell := snr_cell (ar := ar) (noisePower := noisePower) (floor := floor) (o := o) hget
      (g5 _ x3 x4').1
    obtain ⟨r, r1, _, r3⟩ := hd.rate
    refine ⟨i, hi, by omega, x3, x4', ?_, hd.above⟩
    simp only [hget, ← g2]
    rw [← hcell, r3]
    unfold Search.snr
    have : (toSearch ar (planeOf inp a rates) noisePower floor o).noise (i : Int) =
        noiseOf ar noisePower (planeOf inp a rates).steps r := by
      simp only [toSearch]
      rw [hi] at r1
      rw [r1]
    rw [this, hi]
    rfl

/-- **C107.** Take any filterbank file, opened and read from as in C106, any coarse channel, and any
searched drifts, noise estimate and threshold for which the search is defined. The search returns, and
every hit that is read back from the file it was written to has as its SNR that of a straight drifting
line of samples of the file, within that coarse channel and with one of the searched drifts (possibly
desmeared), and that SNR is above the threshold: there are no hits without a signal. The frequency is
that of a channel of the same coarse channel. The floats need only a transitive irreflexive `<`.

Missing: the drifts for which C07 is undefined, thresholds below the smallest normal float, and coarse
channels of more than `2²⁴` fine channels. -/
theorem C107_hits_are_lines_partial (R24 : Rounding 24) (R53 : Rounding 53) (ar : Arith F Fl)
    (o : DOps Fl) (devOk : Dev → Bool) (fltMin : F)
    (junkHit : Coord → Int) (junk : Int → F) (heap : Heap F) (flags : Heap UInt8)
    {f : H5Read.File F} {a : Attrs Fl} {T : Nat} {N : Int} {fch1 foff tsamp : ℚ}
    (hf : Filterbank f a T N fch1 foff tsamp) {dev : Dev} (hdev : devOk dev = true) {fine : Int}
    (hfine : 0 ≤ fine) {s : Scan F Fl Dev P}
    (hopen : openFile o dev a (H5Shape.getDataShape f.toDataset) fine = .ok s)
    {ops : List (Scan.Op F Fl Dev P)} (hops : added ops = []) {i : Int} (hi : 0 ≤ i ∧ i < s.num)
    (hsize : s.fine ≤ 2 ^ 24) {ro : RateOptions} (hT : 2 ≤ T ∧ (T : Int) - 1 ≤ 2 ^ 24)
    (hstep : ro.step ≠ 0) (hne : 0 < (ro.high - ro.low).tdiv ro.step)
    (hrange : ∀ j : Nat, (j : Int) < (ro.high - ro.low).tdiv ro.step →
      |ro.low + j * ro.step| < 2 ^ 22 ∧ 2 * |ro.low + j * ro.step| ≤ s.fine)
    (noisePower floor : F) (op : Options F) (hm : op.method = .connectedComponents)
    (htrans : ∀ a b c : F, a < b → b < c → a < c) (hirr : ∀ a : F, ¬ a < a)
    (hhalf : ∀ v : F, op.thr < v → op.thr / 2 < v) (hmin : ∀ v : F, op.thr < v → fltMin < v)
    {C : Conv F Fl} (hC : C.Lawful) {fr : Framing (Signal F Fl)}
    (hfr : fr.LawfulOn File.Signal.Fits) :
    ∃ (hs l : List (Hit F Fl)) (desmear : Nat → Int) (off : Nat → Nat → Int),
      searchChannel R24 R53 ar o devOk fltMin junkHit junk f (Scan.run o devOk s ops) i ro noisePower
        floor op heap flags = .ok hs ∧
      readHits C fr (writeHits C fr hs) = .ok l ∧ l.length = hs.length ∧
      (∀ j : Nat, (j : Int) < (ro.high - ro.low).tdiv ro.step →
        StraightPath (ro.low + j * ro.step) T (2 ^ (-23 : ℤ) + 2 ^ (-51 : ℤ)) (off j) ∧
        1 ≤ desmear j) ∧
      ∀ h ∈ l, op.thr < h.snr ∧ ∃ (j : Nat) (k : Int), (j : Int) < (ro.high - ro.low).tdiv ro.step ∧
        0 ≤ k ∧ k < s.fine ∧
        h.snr = (pathSum (fun t c => f.at t (s.fine * i + c)) (desmear j)
            (path s.fine.toNat T (decide (0 ≤ ro.low + j * ro.step)) (ro.low + j * ro.step)
              (desmear j).toNat (off j) k) / ((T : Int) : F) - floor) /
          driftNoise ar noisePower (T * desmear j) := by
  obtain ⟨c, c1, c2, c3, c4, c5, c6, c7⟩ := open_channel o devOk hf hdev hfine hopen hops hi.1 hi.2
  have hm0 : 0 ≤ s.fine * i := Int.mul_nonneg c6 hi.1
  obtain ⟨h1, dd, h2, m, inp, e1, e2, e3, e4, e5, e6, e7⟩ := window_input f T N hf.dims hf.labels
    hf.nchans (s.fine * i) s.fine hm0 c6 c7 junk heap flags
  obtain ⟨hs, des, off, q1, q2, q3⟩ := driftSearch_lines R24 R53
    (driftHz o c.hdr.foff c.hdr.tsamp) ar fltMin junkHit
    ⟨c.fch1, c.hdr.foff, c.hdr.tstart, c.hdr.tsamp, c.number⟩ e7 e4 (ro := ro)
    (by rw [e5]; exact hT.1) (by rw [e5]; exact hT.2) hstep hne
    (fun x hx => by rw [e6]; exact hrange x hx) noisePower floor op hm htrans hirr hhalf hmin
  have hbw := driftSearch_binwidth hm htrans hirr hhalf hmin q1
  rw [e6] at hbw
  obtain ⟨l, r1, r2⟩ := readHits_whole hC hfr hs fun x hx => by
    have := hbw x hx
    rw [abs_of_nonneg this.1]
    omega
  have hN : inp.numChannels = s.fine.toNat := by omega
  refine ⟨hs, l, des, off, ?_, r1, r2.length_eq.symm, by rw [e5] at q2; exact q2, fun h' hh' => ?_⟩
  · unfold searchChannel
    rw [c1, Outcome.bind_ok]
    unfold evalData
    rw [c2]
    simp only [e1, e2, e3, Outcome.bind_ok]
    exact q1
  · obtain ⟨y, hy, rfl⟩ := List.getElem_of_mem hh'
    have hlen := r2.length_eq
    have hkept := (List.forall₂_iff_get.1 r2).2 y (by omega) hy
    simp only [List.get_eq_getElem] at hkept
    obtain ⟨j, j1, j2, j3, j4, j5, j6⟩ := q3 hs[y] (List.getElem_mem _)
    rw [e6] at j4
    rw [e5, hN] at j5
    rw [hkept.2.2.1]
    exact ⟨j6, j, _, j2, j3, j4, j5⟩

end

/-! ## A concrete case -/

/-- Double arithmetic from a rounding, with a noise of 1 for every drift. -/
def exArith (R : Rounding 53) : Arith ℚ Fl where
  toD := .fin
  toF := fun _ => 1
  ofInt := fun n => .fin (R.r n)
  add := fun x y => match x, y with | .fin x, .fin y => .fin (R.r (x + y)) | _, _ => .nan
  mul := fun x y => match x, y with | .fin x, .fin y => .fin (R.r (x * y)) | _, _ => .nan
  div := fun x y => match x, y with | .fin x, .fin y => .fin (R.r (x / y)) | _, _ => .nan
  abs := id
  sqrt := id
  million := .fin 1000000

def exOps (R : Rounding 53) : DOps Fl where
  add := (exArith R).add
  sub := fun x _ => x
  mul := (exArith R).mul
  div := (exArith R).div
  abs := id
  lt := fun _ _ => false
  ofInt := (exArith R).ofInt
  floor := fun _ => 0
  lit := .fin

theorem exDoubles (R : Rounding 53) : Doubles R (exArith R) (exOps R) where
  add := fun _ _ => rfl
  mul := fun _ _ => rfl
  ofInt := fun _ => rfl
  sadd := fun _ _ => rfl
  smul := fun _ _ => rfl
  sdiv := fun _ _ _ => rfl
  sofInt := fun _ => rfl
  lit := rfl

/-- Conversions that keep the laws. -/
def exConv : Conv ℚ Fl where
  toD := .fin
  toF := fun x => match x with | .fin q => q | _ => 0
  ofInt := fun n => n
  toInt := fun q => .ok q.num

theorem exConv_lawful : exConv.Lawful where
  back := fun _ => rfl
  int := fun n _ => by simp [exConv]

/-- Messages numbered and written in unary. -/
def unary {M : Type} (num : M → Nat) (back : Nat → Option M) : Framing M where
  encode m := List.replicate (num m) 1 ++ [0]
  decode bytes := match bytes.dropWhile (· = 1) with
    | [] => none
    | _ :: rest => (back (bytes.takeWhile (· = 1)).length).map (·, rest)

theorem unary_lawful {M : Type} (num : M → Nat) (back : Nat → Option M)
    (hb : ∀ m, back (num m) = some m) (valid : M → Prop) : (unary num back).LawfulOn valid := by
  have hd : ∀ (n : Nat) (rest : List UInt8),
      (List.replicate n (1 : UInt8) ++ 0 :: rest).dropWhile (· = 1) = 0 :: rest ∧
      (List.replicate n (1 : UInt8) ++ 0 :: rest).takeWhile (· = 1) = List.replicate n 1 := by
    intro n rest
    induction n with
    | zero => simp
    | succ n ih => simpa [List.replicate_succ] using ih
  constructor
  · intro m _; simp [unary]
  · intro m _ rest
    obtain ⟨h1, h2⟩ := hd (num m) rest
    simp only [unary, List.append_assoc, List.cons_append, List.nil_append]
    rw [h1]
    simp only [h2, List.length_replicate, hb, Option.map_some]
  · intro m _ bytes hpre hne
    have hlt : bytes.length < num m + 1 := by
      have h1 := hpre.length_le
      have h2 : bytes.length ≠ (List.replicate (num m) (1 : UInt8) ++ [0]).length :=
        fun h => hne (hpre.eq_of_length h)
      simp only [unary, List.length_append, List.length_replicate, List.length_singleton] at h1 h2
      omega
    have hall : bytes = List.replicate bytes.length 1 := by
      have h1 : bytes <+: List.replicate (num m) (1 : UInt8) :=
        List.prefix_of_prefix_length_le hpre (List.prefix_append _ _) (by simp; omega)
      rw [List.prefix_iff_eq_take] at h1
      rw [List.take_replicate] at h1
      have h2 : min bytes.length (num m) = bytes.length := by omega
      rw [h2] at h1
      exact h1
    have hdrop : bytes.dropWhile (· = 1) = [] := by
      rw [hall]
      generalize bytes.length = n
      induction n with
      | zero => rfl
      | succ n ih => simpa [List.replicate_succ] using ih
    simp only [unary, hdrop]
  · rfl

theorem signal_countable : Countable (Signal ℚ Fl) := by
  have hfl : Countable Fl := by
    have : Function.Injective (fun x : Fl => match x with
        | .fin q => (0, q) | .inf true => (1, 0) | .inf false => (2, 0) | .nan => ((3 : ℕ), (0 : ℚ))) := by
      intro x y h
      rcases x with q | b | _ <;> rcases y with q' | b' | _ <;> (try cases b) <;> (try cases b') <;>
        simp_all
    exact this.countable
  have : Function.Injective (fun s : Signal ℚ Fl => ((s.frequency, s.index, s.driftSteps, s.driftRate,
      s.driftIndex, s.snr, s.numTimesteps), s.power, s.incoherentPower, s.startTime, s.duration,
      s.bandwidth, s.binwidth)) := by
    intro x y h
    cases x; cases y
    simp_all
  exact this.countable

/-- Two coarse channels of 8 fine channels over 3 time steps; from channel 10 a tone drifts by 2. -/
def toneFile : H5Read.File ℚ where
  dims := [3, 1, 16]
  labels := some ["time", "feed_id", "frequency"]
  nchans := some 16
  sample := fun idx => if idx.getD 2 0 = 10 + idx.headD 0 then 11 - idx.headD 0 else 0
  mask := none

def toneAttrs : Attrs Fl where
  fch1 := .fin 8400
  hdr := { foff := .fin (-1 / 1000), machineId := none, nbits := 32, nifs := 1, sourceName := ""
           srcDej := none, srcRaj := none, telescopeId := none, tsamp := .fin 18
           tstart := .fin 57650, dataType := 1, azStart := none, zaStart := none }
  nchans := some 16

theorem toneFile_filterbank : Filterbank toneFile toneAttrs 3 16 8400 (-1 / 1000) 18 :=
  ⟨rfl, rfl, rfl, rfl, by norm_num, by norm_num, rfl, rfl, rfl⟩

theorem toneFile_at (t c : Int) : toneFile.at t c = if c = 10 + t then 11 - (t : ℚ) else 0 := by
  simp [File.at, named, toneFile]

theorem toneFile_tone : HasTone toneFile 3 (8 * 1) (8 * (1 + 1)) 10 2 (fun t => 10 + t) (0 : ℚ) where
  line := ⟨fun t _ => by
    push_cast
    rw [show (10 + (t : ℚ) - (10 + 2 * t / ((3 : ℚ) - 1))) = 0 by ring]
    norm_num⟩
  start := by norm_num
  stop := by norm_num
  positive := fun t ht => by
    rw [toneFile_at, if_pos rfl]
    have : (t : ℚ) < 3 := by exact_mod_cast ht
    push_cast
    linarith
  strongest := fun t ht c _ _ hne => by
    rw [toneFile_at, toneFile_at, if_pos rfl, if_neg hne]
    have : (t : ℚ) < 3 := by exact_mod_cast ht
    push_cast
    linarith
  background := fun t _ c _ _ hne => by rw [toneFile_at, if_neg hne]

/-- The hypotheses of `C106_tone_in_file_partial` are met: the tone that starts in channel 10 of
`toneFile` is found in coarse channel 1. -/
example (R24 : Rounding 24) (R53 : Rounding 53) :
    ∃ (s : Scan ℚ Fl Unit Unit) (fr : Framing (Signal ℚ Fl)) (hs l : List (Hit ℚ Fl)) (h : Hit ℚ Fl)
      (freq rate : ℚ),
      searchChannel R24 R53 (exArith R53) (exOps R53) (fun _ => true) 0 (fun _ => 0) (fun _ => 0)
        toneFile (Scan.run (exOps R53) (fun _ => true) s [.read 0]) 1 ⟨true, -2, 3, 1⟩ 1 0
        ⟨.connectedComponents, 5, 1⟩ ⟨fun _ _ => none, 0⟩ ⟨fun _ _ => none, 0⟩ = .ok hs ∧
      readHits exConv fr (writeHits exConv fr hs) = .ok l ∧ h ∈ l ∧ h.startFreqMHz = .fin freq ∧
      h.driftRate = .fin rate ∧ |freq - 8399.99| ≤ 1 / 10 ^ 11 ∧ |rate + 2000 / 36| ≤ 1 / 10000 ∧
      h.snr = 10 := by
  obtain ⟨num, hnum⟩ := signal_countable
  have hopen : openFile (F := ℚ) (P := Unit) (exOps R53) () toneAttrs
      (H5Shape.getDataShape toneFile.toDataset) 8 = .ok
      { cache := fun _ => none, file := some (.ok [3, 1, 16]), pipeline := [], fch1 := .fin 8400
        hdr := toneAttrs.hdr, nchans := 16, fine := 8, num := 2, offset := 0, ntsteps := 3
        duration := (exOps R53).mul ((exOps R53).ofInt 3) (.fin 18), device := () } := by
    have hs := shape_usual toneFile 3 16 rfl rfl rfl
    rw [hs]
    rfl
  have hro : Searches ⟨true, -2, 3, 1⟩ 3 8 := by
    have hr : ((3 : Int) - (-2)).tdiv 1 = 5 := rfl
    refine ⟨by norm_num, by norm_num, fun i hi => ?_, Or.inr fun i hi => ?_⟩
    · have hi' : (i : Int) < 5 := by rw [← hr]; exact hi
      have h1 : |(-2 : Int) + i * 1| ≤ 2 := by rw [abs_le]; omega
      refine ⟨lt_of_le_of_lt h1 (by norm_num), ?_⟩
      show 2 * |(-2 : Int) + i * 1| ≤ 8
      omega
    · have hi' : (i : Int) < 5 := by rw [← hr]; exact hi
      have h1 : |(-2 : Int) + i * 1| ≤ 2 := by rw [abs_le]; omega
      exact h1
  have hsum : (∑ t ∈ Finset.range 3, toneFile.at t (10 + t)) = 30 := by
    simp only [toneFile_at, if_true, Finset.sum_range_succ, Finset.sum_range_zero]
    norm_num
  classical
  obtain ⟨hs, l, h, freq, rate, r1, r2, r3, r4, r5, r6, r7, r8, -⟩ := C106_tone_in_file_partial
    (Dev := Unit) (P := Unit) R24 R53
    (exArith R53) (exOps R53) (exDoubles R53) (fun _ => true) 0 (fun _ => 0) (fun _ => 0)
    ⟨fun _ _ => none, 0⟩ ⟨fun _ _ => none, 0⟩ toneFile_filterbank (dev := ()) rfl (by norm_num) hopen
    (ops := [.read 0]) rfl (i := 1) ⟨by norm_num, by norm_num⟩ (by norm_num) hro (j := 4)
    (by decide) rfl toneFile_tone le_rfl ⟨.connectedComponents, 5, 1⟩ rfl (noisePower := 1)
    (by simp [driftNoise, exArith]) le_rfl (by norm_num)
    (by rw [hsum]; simp only [driftNoise, exArith]; norm_num) exConv_lawful
    (unary_lawful num (fun n => if h : ∃ m, num m = n then some h.choose else none) (fun m => by
      have hex : ∃ m', num m' = num m := ⟨m, rfl⟩
      rw [dif_pos hex]
      exact congrArg some (hnum hex.choose_spec)) _)
  refine ⟨_, _, hs, l, h, freq, rate, r1, r2, r3, r4, r5, ?_, ?_, ?_⟩
  · refine le_trans (le_of_eq ?_) (r6.trans ?_)
    · norm_num
    · norm_num [abs_of_pos, abs_of_neg]
  · refine le_trans (le_of_eq ?_) (r7.trans ?_)
    · norm_num
    · norm_num [abs_of_pos, abs_of_neg]
  · rw [r8, hsum]
    simp only [driftNoise, exArith]
    norm_num

/-- The same file without the tone. -/
def silentFile : H5Read.File ℚ := { toneFile with sample := fun _ => 0 }

/-- The hypotheses of `C107_hits_are_lines_partial` are met by a file of zeros, also with desmearing of
drifts of more than a channel per time step; since no line is above the threshold, there are no
hits. -/
example (R24 : Rounding 24) (R53 : Rounding 53) :
    ∃ s : Scan ℚ Fl Unit Unit,
      searchChannel R24 R53 (exArith R53) (exOps R53) (fun _ => true) 0 (fun _ => 0) (fun _ => 0)
        silentFile (Scan.run (exOps R53) (fun _ => true) s [.read 0]) 1 ⟨true, -4, 5, 1⟩ 1 0
        ⟨.connectedComponents, 5, 1⟩ ⟨fun _ _ => none, 0⟩ ⟨fun _ _ => none, 0⟩ = .ok [] := by
  obtain ⟨num, hnum⟩ := signal_countable
  have hopen : openFile (F := ℚ) (P := Unit) (exOps R53) () toneAttrs
      (H5Shape.getDataShape silentFile.toDataset) 8 = .ok
      { cache := fun _ => none, file := some (.ok [3, 1, 16]), pipeline := [], fch1 := .fin 8400
        hdr := toneAttrs.hdr, nchans := 16, fine := 8, num := 2, offset := 0, ntsteps := 3
        duration := (exOps R53).mul ((exOps R53).ofInt 3) (.fin 18), device := () } := by
    have hs := shape_usual silentFile 3 16 rfl rfl rfl
    rw [hs]
    rfl
  have hfb : Filterbank silentFile toneAttrs 3 16 8400 (-1 / 1000) 18 :=
    ⟨rfl, rfl, rfl, rfl, by norm_num, by norm_num, rfl, rfl, rfl⟩
  have hr : ((5 : Int) - (-4)).tdiv 1 = 9 := rfl
  classical
  obtain ⟨hs, l, des, off, r1, -, r2, -, r4⟩ := C107_hits_are_lines_partial
    (Dev := Unit) (P := Unit) R24 R53
    (exArith R53) (exOps R53) (fun _ => true) 0 (fun _ => 0) (fun _ => 0)
    ⟨fun _ _ => none, 0⟩ ⟨fun _ _ => none, 0⟩ hfb (dev := ()) rfl (by norm_num) hopen
    (ops := [.read 0]) rfl (i := 1) ⟨by norm_num, by norm_num⟩ (by norm_num) (ro := ⟨true, -4, 5, 1⟩)
    (by norm_num) (by norm_num) (by decide) (fun j hj => by
      have hj' : (j : Int) < 9 := by rw [← hr]; exact hj
      have h1 : |(-4 : Int) + j * 1| ≤ 4 := by rw [abs_le]; omega
      refine ⟨lt_of_le_of_lt h1 (by norm_num), ?_⟩
      show 2 * |(-4 : Int) + j * 1| ≤ 8
      omega) 1 0 ⟨.connectedComponents, 5, 1⟩ rfl (fun _ _ _ => lt_trans) (fun _ => lt_irrefl _)
    (fun v hv => by dsimp only at hv ⊢; linarith) (fun v hv => by dsimp only at hv ⊢; linarith)
    exConv_lawful
    (unary_lawful num (fun n => if h : ∃ m, num m = n then some h.choose else none) (fun m => by
      have hex : ∃ m', num m' = num m := ⟨m, rfl⟩
      rw [dif_pos hex]
      exact congrArg some (hnum hex.choose_spec)) _)
  refine ⟨_, r1.trans ?_⟩
  have hzero : ∀ (d : Int) (p : List (Nat × Int)) (i : Int),
      pathSum (fun t c => silentFile.at t (8 * i + c)) d p = 0 := by
    intro d p i
    unfold pathSum
    induction p with
    | nil => rfl
    | cons x p ih => simpa [File.at, silentFile] using ih
  have hl : l = [] := by
    cases l with
    | nil => rfl
    | cons h l =>
      obtain ⟨h1, j, k, -, -, -, h5⟩ := r4 h (by simp)
      rw [h5, hzero] at h1
      simp only [driftNoise, exArith] at h1
      norm_num at h1
  rw [hl] at r2
  rw [List.length_eq_zero_iff.1 r2.symm]

end Bliss.Hit
