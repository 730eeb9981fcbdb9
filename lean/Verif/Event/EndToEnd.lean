import Verif.Hit.Window
import Verif.Event.FromFile

/-!
# From the filterbank files of a cadence to its events (C144)

Puts together opening the files (`bliss/core/scan.cpp` lines 118-209), the pipeline that
`integrate_drifts` and `hit_search` attach to a scan (`integrate_drifts.cpp` lines 76-92,
`hit_search.cpp` lines 60-81), `scan::hits` (`scan.cpp` lines 316-331) and `event_search`
(`event_search.cpp`).
-/

namespace Bliss.Event

open Bliss.Hit (Hit F32 Arith Options Searches Filterbank Doubles NoLine OneTone LoneTone QuietBand Says
  channelHits searchChannel driftNoise)
open Bliss.File (Event mapAll)
open Bliss.Float (rne Rounding)
open Bliss.Drift (Fl RateOptions)
open Bliss.Comp (Coord)
open Bliss.Nd (Heap)
open Bliss.Scan (Scan DOps Attrs Channel openFile)

/-! ## The program -/

/-- What a search of a cadence is given besides the files: options, the arithmetic, and what happens
to be in memory. `fine` is the number of fine channels per coarse channel, 0 to infer it. -/
structure Config (R24 : Rounding 24) (Dev : Type) where
  ar : Arith (F32 R24) Fl
  o : DOps Fl
  devOk : Dev → Bool
  dev : Dev
  fltMin : F32 R24
  junkHit : Coord → Int
  junk : Int → F32 R24
  heap : Heap (F32 R24)
  flags : Heap UInt8
  fine : Int
  ro : RateOptions
  op : Options (F32 R24)

/-- A filterbank file, and the noise power and noise floor that were estimated for each of its coarse
channels. -/
structure Recording (R24 : Rounding 24) where
  file : H5Read.File (F32 R24)
  attrs : Attrs Fl
  noise : Int → F32 R24 × F32 R24

variable {R24 : Rounding 24} {Dev P : Type}

/-- The transforms that `integrate_drifts(scan)` and `hit_search(scan)` add
(`integrate_drifts.cpp:76-92`, `hit_search.cpp:60-67`), as one: hits are computed from a channel and
set. Simplified: the noise estimates are given; the flags of the drift plane are not kept. -/
def hitTransform (R53 : Rounding 53) (c : Config R24 Dev) (r : Recording R24)
    (ch : Channel (F32 R24) Fl Dev P) : Outcome (Channel (F32 R24) Fl Dev P) :=
  (channelHits R24 R53 c.ar c.o c.fltMin c.junkHit c.junk r.file ch c.ro (r.noise ch.number).1
    (r.noise ch.number).2 c.op c.heap c.flags).bind fun hs => .ok { ch with hits := some (.ok hs) }

/-- A file is opened, the search attached, and its hits asked for (`scan.cpp:118-209`, `293-295`,
`316-331`). -/
def searchFile (R53 : Rounding 53) (c : Config R24 Dev) (r : Recording R24) :
    Outcome (ScanHits (F32 R24) Fl) :=
  (openFile (P := Unit) c.o c.dev r.attrs (H5Shape.getDataShape r.file.toDataset) c.fine).bind fun s =>
    scanSeen c.o c.devOk (Scan.addTransform (hitTransform R53 c r) s)

/-- A finite number. -/
def isFin : Fl → Bool
  | .fin _ => true
  | _ => false

/-- The value of a finite number. -/
def finVal : Fl → ℚ
  | .fin q => q
  | _ => 0

/-- A hit with finite numbers. -/
def finHit (h : Hit (F32 R24) Fl) : Hit ℚ ℚ where
  startFreqIndex := h.startFreqIndex
  startFreqMHz := finVal h.startFreqMHz
  startTime := finVal h.startTime
  duration := finVal h.duration
  rateIndex := h.rateIndex
  driftRate := finVal h.driftRate
  power := finVal h.power
  timeSpan := h.timeSpan
  snr := h.snr.val
  bandwidth := h.bandwidth.val
  binwidth := h.binwidth
  rfi := h.rfi
  coarseChannel := h.coarseChannel

/-- A scan as the model of the event search in `double` and `float` (`ieee`) takes it. Infinities and
NaN are outside that model, here undefined. -/
def finScan (s : ScanHits (F32 R24) Fl) : Outcome (ScanHits ℚ ℚ) :=
  if isFin s.tstart && isFin s.duration && s.hits.all fun h => isFin h.startFreqMHz &&
      isFin h.startTime && isFin h.duration && isFin h.driftRate && isFin h.power then
    .ok ⟨finVal s.tstart, finVal s.duration, s.hits.map finHit⟩
  else .ub

/-- The files of a cadence, target by target, are searched for hits and the cadence for events
(`event_search.cpp:76-100`). -/
def searchCadence (R53 : Rounding 53) (c : Config R24 Dev) (targets : List (List (Recording R24))) :
    Outcome (List (Event ℚ ℚ)) :=
  (mapAll (mapAll fun r => (searchFile R53 c r).bind finScan) targets).bind fun cad =>
    eventSearch ieee exMap cad

/-! ## Specification -/

/-- What a file says about itself: `T` time steps of `tsamp` seconds, from the modified Julian date
`tstart` on; `N` channels, the first at `fch1` MHz, `foff` MHz apart; `num` coarse channels of `fine`
channels. -/
structure Geometry where
  T : Nat
  N : Int
  fch1 : ℚ
  foff : ℚ
  tsamp : ℚ
  tstart : ℚ
  fine : Int
  num : Int

/-- The frequency of a channel, in Hz. -/
def Geometry.freq (g : Geometry) (m : Int) : ℚ := (g.fch1 + g.foff * m) * 1000000

/-- The rate of a drift by `d` channels over the recording, in Hz/s. -/
def Geometry.rate (g : Geometry) (d : Int) : ℚ := d * g.foff * 1000000 / (((g.T : ℚ) - 1) * g.tsamp)

/-- The start of the recording, in seconds. -/
def Geometry.begins (g : Geometry) : ℚ := g.tstart * 86400

/-- The options and the arithmetic are as C106 asks for. -/
structure Config.Valid (R53 : Rounding 53) (c : Config R24 Dev) : Prop where
  doubles : Doubles R53 c.ar c.o
  toD : ∀ x, c.ar.toD x = .fin x.val
  dev : c.devOk c.dev = true
  fine : 0 ≤ c.fine
  method : c.op.method = .connectedComponents
  drifts : 0 < (c.ro.high - c.ro.low).tdiv c.ro.step
  fltMin : 0 ≤ c.fltMin.val
  thr : c.fltMin.val ≤ c.op.thr.val

/-- The file is a filterbank of geometry `g` that can be searched. -/
structure Recording.Valid (c : Config R24 Dev) (r : Recording R24) (g : Geometry) : Prop where
  bank : Filterbank r.file r.attrs g.T g.N g.fch1 g.foff g.tsamp
  start : r.attrs.hdr.tstart = .fin g.tstart
  opens : ∃ s : Scan (F32 R24) Fl Dev Unit, openFile c.o c.dev r.attrs
    (H5Shape.getDataShape r.file.toDataset) c.fine = .ok s ∧ s.fine = g.fine ∧ s.num = g.num
  searches : Searches c.ro g.T g.fine
  steps : g.T ≤ 512

/-- The recording lies between `t0` and `t1`, its frequencies below 100 GHz, and the searched drifts
are at most `M` Hz/s. -/
structure Within (c : Config R24 Dev) (g : Geometry) (t0 t1 M : ℚ) : Prop where
  sampled : 0 < g.tsamp
  begins : t0 + 1 / 100 ≤ g.begins
  ends : g.begins + g.tsamp * g.T + 1 / 100 ≤ t1
  date : |g.begins| ≤ 9000000000
  band : |g.fch1| + |g.foff| * g.N ≤ 99999
  drifts : ∀ j : Nat, (j : Int) < (c.ro.high - c.ro.low).tdiv c.ro.step →
    |g.rate (c.ro.low + j * c.ro.step)| ≤ M

/-- Nothing is reported from coarse channel `i`, or nothing that comes within `K` Hz of the signal
that is at `f + r * t` Hz at time `t` between `t0` and `t1`: either no line is above the threshold, or
every line that the search can report from the channel stays that far away. -/
def Quiet (c : Config R24 Dev) (rec : Recording R24) (g : Geometry) (f r t0 t1 K : ℚ) (i : Int) :
    Prop :=
  NoLine c.ar (fun t m => rec.file.at t (g.fine * i + m)) g.fine.toNat g.T c.ro (rec.noise i).1
    (rec.noise i).2 c.op ∨
  ∀ m, g.fine * i ≤ m → m < g.fine * (i + 1) → ∀ j : Nat,
    (j : Int) < (c.ro.high - c.ro.low).tdiv c.ro.step → ∀ t, t0 ≤ t → t ≤ t1 →
    K ≤ |g.freq m + g.rate (c.ro.low + j * c.ro.step) * (t - g.begins) - (f + r * t)|

/-- One coarse channel of the recording holds the signal, up to `δ` Hz and `ρ` Hz/s, and nothing else
above the threshold; the others are quiet. -/
def Observes (c : Config R24 Dev) (rec : Recording R24) (g : Geometry) (f r δ ρ t0 t1 K : ℚ) : Prop :=
  ∃ i k d, 0 ≤ i ∧ i < g.num ∧
    OneTone c.ar rec.file g.T g.fine i c.ro (rec.noise i).1 (rec.noise i).2 c.op k d ∧
    |g.freq k - (f + r * g.begins)| ≤ δ ∧ |g.rate d - r| ≤ ρ ∧
    ∀ i', 0 ≤ i' → i' < g.num → i' ≠ i → Quiet c rec g f r t0 t1 K i'

/-- Every line that starts in coarse channel `i`, but not in the channels of the file from `a` to `e`,
stays `K` Hz away from the signal. -/
def FarOutside (c : Config R24 Dev) (g : Geometry) (f r t0 t1 K : ℚ) (i a e : Int) : Prop :=
  ∀ m, g.fine * i ≤ m → m < g.fine * (i + 1) → m < a ∨ e ≤ m → ∀ j : Nat,
    (j : Int) < (c.ro.high - c.ro.low).tdiv c.ro.step → ∀ t, t0 ≤ t → t ≤ t1 →
    K ≤ |g.freq m + g.rate (c.ro.low + j * c.ro.step) * (t - g.begins) - (f + r * t)|

/-- Nothing is reported from coarse channel `i` that comes within `K` Hz of the signal: it is quiet, or
some of its channels, as many as the distance of the search, have no line above half the threshold, and
all lines from the others stay that far away. -/
def NotNear (c : Config R24 Dev) (rec : Recording R24) (g : Geometry) (f r t0 t1 K : ℚ) (i : Int) : Prop :=
  Quiet c rec g f r t0 t1 K i ∨ ∃ a e, a ≤ e ∧ c.op.dist ≤ e - a ∧
    QuietBand c.ar (fun t m => rec.file.at t (g.fine * i + m)) g.fine.toNat g.T c.ro (rec.noise i).1
      (rec.noise i).2 c.op (a - g.fine * i) (e - g.fine * i) ∧
    FarOutside c g f r t0 t1 K i a e

/-- Some channels of a coarse channel of the recording hold the signal, up to `δ` Hz and `ρ` Hz/s, and
no other. Whatever is elsewhere in the recording stays `K` Hz away from it. -/
def ObservesAmong (c : Config R24 Dev) (rec : Recording R24) (g : Geometry) (f r δ ρ t0 t1 K : ℚ) : Prop :=
  ∃ i k d a e, 0 ≤ i ∧ i < g.num ∧
    LoneTone c.ar rec.file g.T g.fine i c.ro (rec.noise i).1 (rec.noise i).2 c.op k d a e ∧
    |g.freq k - (f + r * g.begins)| ≤ δ ∧ |g.rate d - r| ≤ ρ ∧ FarOutside c g f r t0 t1 K i a e ∧
    ∀ i', 0 ≤ i' → i' < g.num → i' ≠ i → NotNear c rec g f r t0 t1 K i'

/-- The hit is a measurement of the signal (`Measures`), as a test. -/
def measures (f r δ ρ : ℚ) (h : Hit ℚ ℚ) : Bool :=
  decide (|h.startFreqMHz * 1000000 - (f + r * h.startTime)| ≤ δ) && decide (|h.driftRate - r| ≤ ρ)

theorem measures_iff (f r δ ρ : ℚ) (h : Hit ℚ ℚ) : measures f r δ ρ h = true ↔ Measures f r δ ρ h := by
  simp only [measures, Bool.and_eq_true, decide_eq_true_eq]
  exact ⟨fun ⟨a, b⟩ => ⟨a, b⟩, fun h => ⟨h.freq, h.drift⟩⟩

/-! ## Proofs -/

theorem read_addTransform (o : DOps Fl) (devOk : Dev → Bool) (s : Scan (F32 R24) Fl Dev P)
    (t : Channel (F32 R24) Fl Dev P → Outcome (Channel (F32 R24) Fl Dev P)) (i : Int) :
    (Scan.read o devOk (Scan.addTransform t s) i).2 = (Scan.read o devOk s i).2.bind t := by
  rw [Scan.read_view, Scan.read_view]
  unfold Scan.view
  have hb : Scan.base o devOk (Scan.addTransform t s) i = Scan.base o devOk s i := rfl
  have hn : (Scan.addTransform t s).num = s.num := rfl
  have hd : (Scan.addTransform t s).device = s.device := rfl
  have hp : (Scan.addTransform t s).pipeline = s.pipeline ++ [t] := rfl
  rw [hb, hn, hd, hp]
  by_cases hi : i < 0 ∨ i > s.num
  · rw [if_pos hi, if_pos hi]; rfl
  · rw [if_neg hi, if_neg hi]
    cases Scan.base o devOk s i with
    | throws e => rfl
    | ub => rfl
    | ok c =>
      simp only [Outcome.bind_ok]
      cases Scan.Channel.setDevice devOk s.device c with
      | throws e => rfl
      | ub => rfl
      | ok c' =>
        simp only [Outcome.bind_ok, Scan.applyAll, List.foldlM_append]
        cases s.pipeline.foldlM (fun c t => t c) c' with
        | throws e => rfl
        | ub => rfl
        | ok c'' =>
          simp only [Outcome.bind_ok, List.foldlM_cons, List.foldlM_nil]
          show (t c'' >>= fun x => pure x) = t c''
          cases t c'' <;> rfl

/-- What is known of the hits `L` of coarse channel `i` of a recording, with one tone in the channel where
`one` holds, with a lone tone in some of its channels where `lone` holds. -/
structure ChannelSays (c : Config R24 Dev) (rec : Recording R24) (g : Geometry)
    (one : Int → Int → Int → Prop) (lone : Int → Int → Int → Int → Int → Prop) (i : Nat)
    (L : List (Hit (F32 R24) Fl)) : Prop where
  range : 0 ≤ g.fine * i ∧ g.fine * (i + 1) ≤ g.N
  each : ∀ h ∈ L, ∃ (m d : Int) (freq rate start dur : ℚ), g.fine * i ≤ m ∧ m < g.fine * (i + 1) ∧
    (∃ j : Nat, (j : Int) < (c.ro.high - c.ro.low).tdiv c.ro.step ∧ d = c.ro.low + j * c.ro.step) ∧
    (∃ v, h.power = .fin v) ∧ Says g.T g.fch1 g.foff g.tsamp g.tstart m d h freq rate start dur ∧
    ∀ lo hi : Int, lo ≤ hi → c.op.dist ≤ hi - lo →
      QuietBand c.ar (fun t m => rec.file.at t (g.fine * i + m)) g.fine.toNat g.T c.ro
        (rec.noise i).1 (rec.noise i).2 c.op (lo - g.fine * i) (hi - g.fine * i) →
      (m < lo ∧ g.fine * i + h.startFreqIndex < lo) ∨ (hi ≤ m ∧ hi ≤ g.fine * i + h.startFreqIndex)
  none : NoLine c.ar (fun t m => rec.file.at t (g.fine * i + m)) g.fine.toNat g.T c.ro
    (rec.noise i).1 (rec.noise i).2 c.op → L = []
  tone : ∀ k d, one i k d →
    OneTone c.ar rec.file g.T g.fine i c.ro (rec.noise i).1 (rec.noise i).2 c.op k d →
    ∃ h freq rate start dur, L = [h] ∧
      Says g.T g.fch1 g.foff g.tsamp g.tstart k d h freq rate start dur
  alone : ∀ k d a e, lone i k d a e →
    LoneTone c.ar rec.file g.T g.fine i c.ro (rec.noise i).1 (rec.noise i).2 c.op k d a e →
    ∃ h freq rate start dur, L.filter (fun h => decide (a ≤ g.fine * i + h.startFreqIndex ∧
        g.fine * i + h.startFreqIndex < e)) = [h] ∧
      Says g.T g.fch1 g.foff g.tsamp g.tstart k d h freq rate start dur

/-- The hits of a file are those of its coarse channels. -/
theorem file_hits (R53 : Rounding 53) {c : Config R24 Dev} (hc : c.Valid R53) {rec : Recording R24}
    {g : Geometry} (hv : rec.Valid c g) {s : Scan (F32 R24) Fl Dev Unit}
    (hopen : openFile c.o c.dev rec.attrs (H5Shape.getDataShape rec.file.toDataset) c.fine = .ok s)
    (hnum : s.num = g.num)
    (search : Channel (F32 R24) Fl Dev Unit → Outcome (List (Hit (F32 R24) Fl)))
    (H : Nat → List (Hit (F32 R24) Fl))
    (hH : ∀ i : Nat, (i : Int) < g.num → (Scan.read c.o c.devOk s i).2.bind search = .ok (H i)) :
    ∃ dur, scanSeen c.o c.devOk (Scan.addTransform (fun ch => (search ch).bind fun hs =>
        .ok { ch with hits := some (.ok hs) }) s) =
      .ok ⟨.fin g.tstart, .fin dur, (List.range g.num.toNat).flatMap H⟩ := by
  have hch : ∀ i : Nat, (i : Int) < g.num → ∃ ch : Channel (F32 R24) Fl Dev Unit,
      (Scan.read c.o c.devOk s i).2 = .ok ch := by
    intro i hi
    obtain ⟨ch, c1, -⟩ := Hit.open_channel c.o c.devOk hv.bank hc.dev hc.fine hopen
      (ops := []) rfl (i := (i : Int)) (by omega) (by omega)
    exact ⟨ch, c1⟩
  classical
  have hhits : (Scan.hits c.o c.devOk (Scan.addTransform (fun ch => (search ch).bind fun hs =>
        .ok { ch with hits := some (.ok hs) }) s)).2 = .ok ((List.range g.num.toNat).flatMap H) := by
    by_cases hpos : 0 < g.num
    · obtain ⟨c0, -⟩ := hch 0 hpos
      let ch : Int → Channel (F32 R24) Fl Dev Unit := fun i => if hi : (i.toNat : Int) < g.num then
        { (hch i.toNat hi).choose with hits := some (.ok (H i.toNat)) } else c0
      have hch' : ∀ i : Nat, (i : Int) < g.num → ∃ c1 : Channel (F32 R24) Fl Dev Unit,
          (Scan.read c.o c.devOk s i).2 = .ok c1 ∧
          ch i = { c1 with hits := some (.ok (H i)) } := by
        intro i hi
        refine ⟨(hch i hi).choose, (hch i hi).choose_spec, ?_⟩
        have : ((i : Int).toNat : Int) < g.num := by omega
        simp only [ch]
        rw [dif_pos this]
        rfl
      have h33 := Scan.C33_scan_hits_partial c.o c.devOk
        (Scan.addTransform (fun ch => (search ch).bind fun hs =>
          .ok { ch with hits := some (.ok hs) }) s) ch (fun j h0 h1 => by
          obtain ⟨i, rfl⟩ := Int.eq_ofNat_of_zero_le h0
          have hi : (i : Int) < g.num := by rw [← hnum]; exact h1
          obtain ⟨c1, e1, e3⟩ := hch' i hi
          rw [read_addTransform, e1, e3]
          have hsc := hH i hi
          rw [e1] at hsc
          have hsc' : search c1 = .ok (H i) := hsc
          show (search c1).bind _ = _
          rw [hsc']
          rfl) (fun j h0 h1 => by
          obtain ⟨i, rfl⟩ := Int.eq_ofNat_of_zero_le h0
          obtain ⟨c1, e1, e3⟩ := hch' i (by rw [← hnum]; exact h1)
          exact Or.inl ⟨H i, by rw [e3]; rfl⟩)
      rw [h33]
      have hn : (Scan.addTransform (fun ch => (search ch).bind fun hs =>
          .ok { ch with hits := some (.ok hs) }) s).num = g.num := hnum
      rw [hn]
      congr 1
      apply List.flatMap_congr
      intro i hi
      rw [List.mem_range] at hi
      obtain ⟨c1, e1, e3⟩ := hch' i (by omega)
      rw [e3]
      rfl
    · have h0 : g.num.toNat = 0 := by omega
      unfold Scan.hits
      have hn : (Scan.addTransform (fun ch => (search ch).bind fun hs =>
          .ok { ch with hits := some (.ok hs) }) s).num = g.num := hnum
      rw [hn, h0]
      rfl
  have hs := H5Read.shape_usual rec.file g.T g.N hv.bank.dims hv.bank.labels hv.bank.nchans
  have hdur : s.duration = .fin (R53.r (R53.r (g.T : Int) * g.tsamp)) ∧ s.hdr = rec.attrs.hdr := by
    have ho := hopen
    rw [hs] at ho
    unfold openFile at ho
    rw [hv.bank.attr] at ho
    simp only [Outcome.bind_ok] at ho
    have hfin : c.o.mul (c.o.ofInt (g.T : Int)) rec.attrs.hdr.tsamp =
        .fin (R53.r (R53.r (g.T : Int) * g.tsamp)) := by
      rw [hv.bank.length, hc.doubles.sofInt, hc.doubles.smul]
    split at ho
    · cases hif : Scan.infer c.o g.N (c.o.mul (c.o.lit 1000000) rec.attrs.hdr.foff)
        rec.attrs.hdr.tsamp with
      | throws e => rw [hif] at ho; cases ho
      | ub => rw [hif] at ho; cases ho
      | ok nf =>
        rw [hif] at ho
        obtain rfl := Outcome.ok.inj ho
        exact ⟨hfin, rfl⟩
    · obtain rfl := Outcome.ok.inj ho
      exact ⟨hfin, rfl⟩
  refine ⟨R53.r (R53.r (g.T : Int) * g.tsamp), ?_⟩
  unfold scanSeen
  rw [hhits]
  show Outcome.ok (ScanHits.mk s.hdr.tstart s.duration _) = _
  rw [hdur.1, hdur.2, hv.start]

/-- What the search of a file returns. -/
theorem file_facts (R53 : Rounding 53) {c : Config R24 Dev} (hc : c.Valid R53) {rec : Recording R24}
    {g : Geometry} (hv : rec.Valid c g) :
    ∃ (H : Nat → List (Hit (F32 R24) Fl)) (dur : ℚ),
      searchFile R53 c rec = .ok ⟨.fin g.tstart, .fin dur, (List.range g.num.toNat).flatMap H⟩ ∧
      ∀ i : Nat, (i : Int) < g.num →
        ChannelSays c rec g (fun _ _ _ => True) (fun _ _ _ _ _ => True) i (H i) := by
  obtain ⟨s, hopen, hfine, hnum⟩ := hv.opens
  have hro := hv.searches
  rw [← hfine] at hro
  have hfac : ∀ i : Nat, (i : Int) < g.num → _ := fun i hi =>
    Hit.channel_facts R24 R53 c.ar c.o hc.doubles c.devOk c.fltMin c.junkHit c.junk c.heap c.flags
      hv.bank hv.start hc.dev hc.fine hopen (ops := []) rfl (i := (i : Int)) ⟨by omega, by omega⟩ hro
      hc.drifts hv.steps (rec.noise i).1 (rec.noise i).2 c.op hc.method hc.fltMin hc.thr
  classical
  let H : Nat → List (Hit (F32 R24) Fl) := fun i => if hi : (i : Int) < g.num then
    (hfac i hi).choose else []
  have hH : ∀ (i : Nat) (hi : (i : Int) < g.num), H i = (hfac i hi).choose := fun i hi => dif_pos hi
  obtain ⟨dur, hdur⟩ := file_hits R53 hc hv hopen hnum (fun ch => channelHits R24 R53 c.ar c.o c.fltMin
    c.junkHit c.junk rec.file ch c.ro (rec.noise ch.number).1 (rec.noise ch.number).2 c.op c.heap c.flags)
    H (fun i hi => by
      obtain ⟨ch, c1, -, c3, -⟩ := Hit.open_channel c.o c.devOk hv.bank hc.dev hc.fine hopen
        (ops := []) rfl (i := (i : Int)) (by omega) (by omega)
      have c1' : (Scan.read c.o c.devOk s i).2 = .ok ch := c1
      have hsc : (Scan.read c.o c.devOk s i).2.bind (fun c1 => channelHits R24 R53 c.ar c.o
          c.fltMin c.junkHit c.junk rec.file c1 c.ro (rec.noise i).1 (rec.noise i).2 c.op c.heap
          c.flags) = .ok (H i) := by
        rw [hH i hi]
        exact (hfac i hi).choose_spec.1
      rw [c1'] at hsc ⊢
      show channelHits R24 R53 c.ar c.o c.fltMin c.junkHit c.junk rec.file ch c.ro
        (rec.noise ch.number).1 (rec.noise ch.number).2 c.op c.heap c.flags = _
      rw [c3]
      exact hsc)
  refine ⟨H, dur, ?_, fun i hi => ?_⟩
  · unfold searchFile
    rw [hopen]
    exact hdur
  · obtain ⟨f0, f1, f2, f3⟩ := (hfac i hi).choose_spec
    have f4 := fun k d a e ht => Hit.channel_window R24 R53 c.ar c.o hc.doubles c.devOk c.fltMin c.junkHit
      c.junk c.heap c.flags hv.bank hv.start hc.dev hc.fine hopen (ops := []) rfl (i := (i : Int))
      ⟨by omega, by omega⟩ hro hc.drifts hv.steps (rec.noise i).1 (rec.noise i).2 c.op hc.method hc.fltMin
      hc.thr f0 (k := k) (d := d) (lo := a) (hi' := e) ht
    rw [← hH i hi, hfine] at f1 f2 f3 f4
    obtain ⟨-, -, -, -, -, -, c6, c7⟩ := Hit.open_channel c.o c.devOk hv.bank hc.dev hc.fine hopen
      (ops := []) rfl (i := (i : Int)) (by omega) (by omega)
    rw [hfine] at c6 c7
    refine ⟨⟨Int.mul_nonneg c6 (by omega), by rw [Int.mul_add, Int.mul_one]; exact c7⟩,
      fun h hh => ?_, f2, fun k d _ ht => ?_, fun k d a e _ ht => f4 k d a e ht⟩
    · obtain ⟨m, d, freq, rate, start, dur, w1, w2, w3, ⟨v, w4⟩, w5⟩ := f1 h hh
      exact ⟨m, d, freq, rate, start, dur, w1, w2, w3, ⟨v.val, by rw [w4, hc.toD]⟩, w5⟩
    · obtain ⟨h, freq, rate, start, dur, w1, w2, -⟩ := f3 k d ht
      exact ⟨h, freq, rate, start, dur, w1, w2⟩

/-- How far a hit is from what it says. -/
theorem says_facts {c : Config R24 Dev} {g : Geometry} {t0 t1 M : ℚ} (hw : Within c g t0 t1 M)
    (hM : M ≤ 999) (ht : t1 - t0 ≤ 1000000) (hT : 2 ≤ g.T) {m d : Int} (hm0 : 0 ≤ m) (hm : m ≤ g.N)
    (hd : |g.rate d| ≤ M) {h : Hit (F32 R24) Fl} {freq rate start dur : ℚ}
    (hs : Says g.T g.fch1 g.foff g.tsamp g.tstart m d h freq rate start dur) :
    InRange (finHit h) ∧ t0 ≤ (finHit h).startTime ∧
      (finHit h).startTime + (finHit h).duration ≤ t1 ∧
      |(finHit h).startFreqMHz * 1000000 - g.freq m| ≤ 1 / 1000 ∧
      |(finHit h).driftRate - g.rate d| ≤ M / 4000000 ∧
      |(finHit h).startTime - g.begins| ≤ 1 / 100000 := by
  have e1 : (finHit h).startFreqMHz = freq := by simp [finHit, hs.freqEq, finVal]
  have e2 : (finHit h).driftRate = rate := by simp [finHit, hs.rateEq, finVal]
  have e3 : (finHit h).startTime = start := by simp [finHit, hs.startEq, finVal]
  have e4 : (finHit h).duration = dur := by simp [finHit, hs.durEq, finVal]
  have u50 : (2 : ℚ) ^ (-50 : ℤ) = 1 / 1125899906842624 := by norm_num
  have u22 : (2 : ℚ) ^ (-22 : ℤ) = 1 / 4194304 := by norm_num
  have u52 : (2 : ℚ) ^ (-52 : ℤ) = 1 / 4503599627370496 := by norm_num
  have hf := hs.freq
  have hr := hs.rate
  have hst := hs.start
  have hdu := hs.dur
  rw [u50] at hf hst
  rw [u22] at hr
  rw [u52] at hdu
  change |rate - g.rate d| ≤ 1 / 4194304 * |g.rate d| at hr
  change |start - g.begins| ≤ 1 / 1125899906842624 * |g.begins| at hst
  have hmq : (0 : ℚ) ≤ m := by exact_mod_cast hm0
  have hmN : (m : ℚ) ≤ g.N := by exact_mod_cast hm
  have hB : |g.fch1| + |g.foff| * m ≤ 99999 :=
    (add_le_add le_rfl (mul_le_mul_of_nonneg_left hmN (abs_nonneg _))).trans hw.band
  have hf' : |freq - (g.fch1 + g.foff * m)| ≤ 1 / 1125899906842624 * 99999 :=
    hf.trans (mul_le_mul_of_nonneg_left hB (by norm_num))
  have hst' : |start - g.begins| ≤ 1 / 100000 :=
    hst.trans ((mul_le_mul_of_nonneg_left hw.date (by norm_num)).trans (by norm_num))
  have hTq : (2 : ℚ) ≤ g.T := by exact_mod_cast hT
  have hpos : 0 < g.tsamp * g.T := mul_pos hw.sampled (by linarith)
  rw [abs_of_pos hpos] at hdu
  have hb := hw.begins
  have he := hw.ends
  have hlen : g.tsamp * g.T ≤ 1000000 := by linarith
  have hr' : |rate - g.rate d| ≤ M / 4000000 := by
    have := mul_le_mul_of_nonneg_left hd (by norm_num : (0 : ℚ) ≤ 1 / 4194304)
    have hM0 : 0 ≤ M := (abs_nonneg _).trans hd
    linarith
  have hfn : |freq| ≤ 100000 := by
    have h1 : |g.fch1 + g.foff * m| ≤ 99999 := by
      have := abs_add_le g.fch1 (g.foff * m)
      rw [abs_mul, abs_of_nonneg hmq] at this
      linarith
    rw [abs_le] at h1 hf' ⊢
    constructor <;> linarith [h1.1, h1.2, hf'.1, hf'.2]
  rw [e1, e2, e3, e4]
  have hdt := hw.date
  rw [abs_le] at hst' hdu hdt
  refine ⟨⟨by rw [e1]; exact hfn, ?_, ?_, ?_⟩, by linarith [hst'.1], by linarith [hst'.2, hdu.2], ?_,
    hr', abs_le.2 hst'⟩
  · rw [e3, abs_le]
    constructor <;> linarith [hst'.1, hst'.2, hdt.1, hdt.2]
  · rw [e4]
    constructor <;> linarith [hdu.1, hdu.2]
  · rw [e2]
    rw [abs_le] at hr' hd ⊢
    constructor <;> linarith [hr'.1, hr'.2, hd.1, hd.2]
  · have e : freq * 1000000 - g.freq m = (freq - (g.fch1 + g.foff * m)) * 1000000 := by
      unfold Geometry.freq; ring
    rw [e, abs_mul, abs_of_pos (by norm_num : (0 : ℚ) < 1000000)]
    linarith

theorem flatMap_one {A : Type} (G : Nat → List A) (n i : Nat) (hi : i < n)
    (h : ∀ j < n, j ≠ i → G j = []) : (List.range n).flatMap G = G i := by
  induction n with
  | zero => omega
  | succ n ih =>
    rw [List.range_succ, List.flatMap_append, List.flatMap_cons, List.flatMap_nil, List.append_nil]
    by_cases he : i = n
    · subst he
      have : (List.range i).flatMap G = [] := by
        rw [List.flatMap_eq_nil_iff]
        intro j hj
        rw [List.mem_range] at hj
        exact h j (by omega) (by omega)
      rw [this, List.nil_append]
    · rw [ih (by omega) fun j hj hne => h j (by omega) hne, h n (by omega) (Ne.symm he),
        List.append_nil]

/-- The scan of a recording, as the event search sees it. -/
structure Seen (f r δ ρ t0 t1 : ℚ) (sc : ScanHits ℚ ℚ) : Prop where
  range : ∀ h ∈ sc.hits, InRange h
  time : ∀ h ∈ sc.hits, t0 ≤ h.startTime ∧ h.startTime + h.duration ≤ t1
  far : ∀ h ∈ sc.hits, ¬ Measures f r δ ρ h → ∀ t, t0 ≤ t → t ≤ t1 →
    5100 + (δ + ρ * (t1 - t0)) ≤ |trackAt h t - (f + r * t)|

section
variable {R53 : Rounding 53} {c : Config R24 Dev} {rec : Recording R24} {g : Geometry}
  {f r δ ρ t0 t1 M : ℚ}

/-- A hit of a line that stays away from the signal is no measurement of it. -/
theorem line_far (hw : Within c g t0 t1 M) (hM : M ≤ 999) (ht0 : t0 ≤ t1) (hδ : 1 ≤ δ)
    (hρ : M / 4000000 ≤ ρ) {b : Hit ℚ ℚ} {m : Int} {j : Nat}
    (hj : (j : Int) < (c.ro.high - c.ro.low).tdiv c.ro.step) (w1 : InRange b) (w2 : t0 ≤ b.startTime)
    (w3 : b.startTime + b.duration ≤ t1) (w4 : |b.startFreqMHz * 1000000 - g.freq m| ≤ 1 / 1000)
    (w5 : |b.driftRate - g.rate (c.ro.low + j * c.ro.step)| ≤ M / 4000000)
    (w6 : |b.startTime - g.begins| ≤ 1 / 100000)
    (hq : ∀ t, t0 ≤ t → t ≤ t1 → 5100 + 2 * (δ + ρ * (t1 - t0)) ≤
      |g.freq m + g.rate (c.ro.low + j * c.ro.step) * (t - g.begins) - (f + r * t)|) :
    ¬ Measures f r δ ρ b ∧ ∀ t, t0 ≤ t → t ≤ t1 →
      5100 + (δ + ρ * (t1 - t0)) ≤ |trackAt b t - (f + r * t)| := by
  have hD : 0 ≤ t1 - t0 := by linarith
  have hdur := w1.dur.1
  have hRj := hw.drifts j hj
  have hM0 : 0 ≤ M := (abs_nonneg _).trans hRj
  have hfar : ∀ t, t0 ≤ t → t ≤ t1 →
      5100 + (δ + ρ * (t1 - t0)) ≤ |trackAt b t - (f + r * t)| := by
    intro t ha hb
    have hk := hq t ha hb
    unfold trackAt
    generalize g.rate (c.ro.low + j * c.ro.step) = D0 at *
    have key : g.freq m + D0 * (t - g.begins) - (f + r * t) =
        (b.startFreqMHz * 1000000 + b.driftRate * (t - b.startTime) - (f + r * t)) -
        ((b.startFreqMHz * 1000000 - g.freq m) + (b.driftRate - D0) * (t - b.startTime) -
          D0 * (b.startTime - g.begins)) := by ring
    rw [key] at hk
    have a1 := abs_sub (b.startFreqMHz * 1000000 + b.driftRate * (t - b.startTime) - (f + r * t))
      ((b.startFreqMHz * 1000000 - g.freq m) + (b.driftRate - D0) * (t - b.startTime) -
          D0 * (b.startTime - g.begins))
    have a2 := abs_sub ((b.startFreqMHz * 1000000 - g.freq m) +
      (b.driftRate - D0) * (t - b.startTime)) (D0 * (b.startTime - g.begins))
    have a3 := abs_add_le (b.startFreqMHz * 1000000 - g.freq m)
      ((b.driftRate - D0) * (t - b.startTime))
    rw [abs_mul] at a3
    rw [abs_mul D0] at a2
    have a4 : |t - b.startTime| ≤ t1 - t0 := by
      rw [abs_le]; constructor <;> linarith
    have a5 : |b.driftRate - D0| * |t - b.startTime| ≤ ρ * (t1 - t0) :=
      mul_le_mul (w5.trans hρ) a4 (abs_nonneg _) (by linarith)
    have a6 : |D0| * |b.startTime - g.begins| ≤ 999 * (1 / 100000) :=
      mul_le_mul (hRj.trans hM) w6 (abs_nonneg _) (by norm_num)
    have a7 : (999 : ℚ) * (1 / 100000) = 999 / 100000 := by norm_num
    linarith
  refine ⟨fun hmeas => ?_, hfar⟩
  have := hfar b.startTime w2 (by linarith)
  have e : trackAt b b.startTime = b.startFreqMHz * 1000000 := by
    unfold trackAt; ring
  rw [e] at this
  have h3 := hmeas.freq
  have : 0 ≤ ρ * (t1 - t0) := mul_nonneg (by linarith) hD
  linarith

/-- A hit of the signal's line is a measurement of the signal. -/
theorem line_measures (hr : |r| ≤ 1000) {b : Hit ℚ ℚ} {k d : Int}
    (w4 : |b.startFreqMHz * 1000000 - g.freq k| ≤ 1 / 1000)
    (w5 : |b.driftRate - g.rate d| ≤ M / 4000000) (w6 : |b.startTime - g.begins| ≤ 1 / 100000)
    (hfk : |g.freq k - (f + r * g.begins)| ≤ δ - 1) (hrd : |g.rate d - r| ≤ ρ - M / 4000000) :
    Measures f r δ ρ b := by
  refine ⟨?_, ?_⟩
  · have key : b.startFreqMHz * 1000000 - (f + r * b.startTime) =
        (b.startFreqMHz * 1000000 - g.freq k) + (g.freq k - (f + r * g.begins)) -
          r * (b.startTime - g.begins) := by ring
    rw [key]
    have a1 := abs_sub ((b.startFreqMHz * 1000000 - g.freq k) + (g.freq k - (f + r * g.begins)))
      (r * (b.startTime - g.begins))
    have a2 := abs_add_le (b.startFreqMHz * 1000000 - g.freq k) (g.freq k - (f + r * g.begins))
    rw [abs_mul] at a1
    have a3 : |r| * |b.startTime - g.begins| ≤ 1000 * (1 / 100000) :=
      mul_le_mul hr w6 (abs_nonneg _) (by norm_num)
    have a4 : (1000 : ℚ) * (1 / 100000) = 1 / 100 := by norm_num
    linarith
  · have : b.driftRate - r = (b.driftRate - g.rate d) + (g.rate d - r) := by ring
    rw [this]
    have := abs_add_le (b.driftRate - g.rate d) (g.rate d - r)
    linarith

theorem scan_seen {one : Int → Int → Int → Prop} {lone : Int → Int → Int → Int → Int → Prop}
    {H : Nat → List (Hit (F32 R24) Fl)} {dur : ℚ} {res : Outcome (ScanHits (F32 R24) Fl)}
    (h1 : res = .ok ⟨.fin g.tstart, .fin dur, (List.range g.num.toNat).flatMap H⟩)
    (h2 : ∀ i : Nat, (i : Int) < g.num → ChannelSays c rec g one lone i (H i))
    (hv : rec.Valid c g) (hw : Within c g t0 t1 M) (hM : M ≤ 999)
    (ht0 : t0 ≤ t1) (ht : t1 - t0 ≤ 1000000) (hδ : 1 ≤ δ) (hρ : M / 4000000 ≤ ρ) (hr : |r| ≤ 1000) :
    ∃ (G : Nat → List (Hit ℚ ℚ)),
      res.bind finScan =
        .ok ⟨g.tstart, dur, (List.range g.num.toNat).flatMap G⟩ ∧
      ∀ i : Nat, (i : Int) < g.num →
        (∀ h ∈ G i, InRange h ∧ t0 ≤ h.startTime ∧ h.startTime + h.duration ≤ t1) ∧
        (NotNear c rec g f r t0 t1 (5100 + 2 * (δ + ρ * (t1 - t0))) i → ∀ h ∈ G i,
          ¬ Measures f r δ ρ h ∧ ∀ t, t0 ≤ t → t ≤ t1 →
            5100 + (δ + ρ * (t1 - t0)) ≤ |trackAt h t - (f + r * t)|) ∧
        (∀ k d, one i k d →
          OneTone c.ar rec.file g.T g.fine i c.ro (rec.noise i).1 (rec.noise i).2 c.op k d →
          |g.freq k - (f + r * g.begins)| ≤ δ - 1 → |g.rate d - r| ≤ ρ - M / 4000000 →
          ∃ h, G i = [h] ∧ Measures f r δ ρ h ∧ |h.startTime - g.begins| ≤ 1 / 100000) ∧
        ∀ k d a e, lone i k d a e →
          LoneTone c.ar rec.file g.T g.fine i c.ro (rec.noise i).1 (rec.noise i).2 c.op k d a e →
          FarOutside c g f r t0 t1 (5100 + 2 * (δ + ρ * (t1 - t0))) i a e →
          |g.freq k - (f + r * g.begins)| ≤ δ - 1 → |g.rate d - r| ≤ ρ - M / 4000000 →
          ∃ h, (G i).filter (measures f r δ ρ) = [h] ∧ Measures f r δ ρ h ∧
            |h.startTime - g.begins| ≤ 1 / 100000 ∧
            ∀ b ∈ G i, ¬ Measures f r δ ρ b → ∀ t, t0 ≤ t → t ≤ t1 →
              5100 + (δ + ρ * (t1 - t0)) ≤ |trackAt b t - (f + r * t)| := by
  have hT := hv.searches.steps.1
  refine ⟨fun i => (H i).map finHit, ?_, fun i hi => ?_⟩
  · rw [h1]
    show finScan _ = _
    unfold finScan
    rw [if_pos]
    · rw [List.map_flatMap]; rfl
    · rw [Bool.and_eq_true]
      refine ⟨rfl, ?_⟩
      rw [List.all_eq_true]
      intro h hh
      obtain ⟨i, hi, hh⟩ := List.mem_flatMap.1 hh
      rw [List.mem_range] at hi
      obtain ⟨m, d, freq, rate, start, du, -, -, -, ⟨v, hp⟩, hs, -⟩ := (h2 i (by omega)).each h hh
      rw [hs.freqEq, hs.rateEq, hs.startEq, hs.durEq, hp]
      rfl
  · obtain ⟨⟨b0, b1⟩, f1, f2, f3, f4⟩ := h2 i hi
    have hone : ∀ h ∈ H i, ∃ (m : Int) (j : Nat), g.fine * i ≤ m ∧ m < g.fine * (i + 1) ∧
        (j : Int) < (c.ro.high - c.ro.low).tdiv c.ro.step ∧
        (∀ lo hi : Int, lo ≤ hi → c.op.dist ≤ hi - lo →
            QuietBand c.ar (fun t m => rec.file.at t (g.fine * i + m)) g.fine.toNat g.T c.ro
              (rec.noise i).1 (rec.noise i).2 c.op (lo - g.fine * i) (hi - g.fine * i) →
            (m < lo ∧ g.fine * i + h.startFreqIndex < lo) ∨
              (hi ≤ m ∧ hi ≤ g.fine * i + h.startFreqIndex)) ∧
        InRange (finHit h) ∧ t0 ≤ (finHit h).startTime ∧
        (finHit h).startTime + (finHit h).duration ≤ t1 ∧
        |(finHit h).startFreqMHz * 1000000 - g.freq m| ≤ 1 / 1000 ∧
        |(finHit h).driftRate - g.rate (c.ro.low + j * c.ro.step)| ≤ M / 4000000 ∧
        |(finHit h).startTime - g.begins| ≤ 1 / 100000 := by
      intro h hh
      obtain ⟨m, d, freq, rate, start, du, m0, m1, ⟨j, hj, rfl⟩, -, hs, hsp⟩ := f1 h hh
      exact ⟨m, j, m0, m1, hj, hsp, says_facts hw hM ht hT (by omega) (by omega) (hw.drifts j hj) hs⟩
    have htone : ∀ {fl : H5Read.File (F32 R24)} {k d : Int} {h : Hit (F32 R24) Fl} {freq rate start du : ℚ},
        OneTone c.ar fl g.T g.fine i c.ro (rec.noise i).1 (rec.noise i).2 c.op k d →
        Says g.T g.fch1 g.foff g.tsamp g.tstart k d h freq rate start du →
        |g.freq k - (f + r * g.begins)| ≤ δ - 1 → |g.rate d - r| ≤ ρ - M / 4000000 →
        Measures f r δ ρ (finHit h) ∧ |(finHit h).startTime - g.begins| ≤ 1 / 100000 := by
      rintro fl k d h freq rate start du ⟨j, ch, p, j1, j2, -, hk, -⟩ hs hfk hrd
      have hRj : |g.rate d| ≤ M := by rw [j2]; exact hw.drifts j j1
      have hk0 := hk.start.1
      have hk1 := hk.start.2
      obtain ⟨w1, w2, w3, w4, w5, w6⟩ := says_facts hw hM ht hT (m := k) (d := d) (by omega) (by omega)
        hRj hs
      exact ⟨line_measures hr w4 w5 w6 hfk hrd, w6⟩
    refine ⟨fun h' hh' => ?_, fun hq h' hh' => ?_, fun k d hof htn hfk hrd => ?_,
      fun k d a e hof htn hout hfk hrd => ?_⟩
    · obtain ⟨h, hh, rfl⟩ := List.mem_map.1 hh'
      obtain ⟨m, j, -, -, -, -, w1, w2, w3, -⟩ := hone h hh
      exact ⟨w1, w2, w3⟩
    · obtain ⟨h, hh, rfl⟩ := List.mem_map.1 hh'
      obtain ⟨m, j, m0, m1, hj, hsp, w1, w2, w3, w4, w5, w6⟩ := hone h hh
      rcases hq with (hq | hq) | ⟨a, e, a1, a2, a3, a4⟩
      · rw [f2 hq] at hh; simp at hh
      · exact line_far hw hM ht0 hδ hρ hj w1 w2 w3 w4 w5 w6 (hq m m0 m1 j hj)
      · exact line_far hw hM ht0 hδ hρ hj w1 w2 w3 w4 w5 w6 (a4 m m0 m1
          ((hsp a e a1 a2 a3).imp And.left And.left) j hj)
    · obtain ⟨h, freq, rate, start, du, e1, hs⟩ := f3 k d hof htn
      obtain ⟨k1, k2⟩ := htone htn hs hfk hrd
      exact ⟨finHit h, by show (H i).map finHit = _; rw [e1]; rfl, k1, k2⟩
    · obtain ⟨h, freq, rate, start, du, e1, hs⟩ := f4 k d a e hof htn
      obtain ⟨others, S, t1', t2, t3, -, -, t6, t7⟩ := htn
      obtain ⟨k1, k2⟩ := htone t1' hs hfk hrd
      have hside : ∀ b ∈ H i, (a ≤ g.fine * i + b.startFreqIndex ∧ g.fine * i + b.startFreqIndex < e ∧
          b = h) ∨ (¬ (a ≤ g.fine * i + b.startFreqIndex ∧ g.fine * i + b.startFreqIndex < e) ∧
            ¬ Measures f r δ ρ (finHit b) ∧ ∀ t, t0 ≤ t → t ≤ t1 →
              5100 + (δ + ρ * (t1 - t0)) ≤ |trackAt (finHit b) t - (f + r * t)|) := by
        intro b hb
        by_cases hin : a ≤ g.fine * i + b.startFreqIndex ∧ g.fine * i + b.startFreqIndex < e
        · left
          refine ⟨hin.1, hin.2, ?_⟩
          have : b ∈ [h] := by
            rw [← e1]
            exact List.mem_filter.2 ⟨hb, by simpa using hin⟩
          exact List.mem_singleton.1 this
        · right
          refine ⟨hin, ?_⟩
          obtain ⟨m, j, m0, m1, hj, hsp, w1, w2, w3, w4, w5, w6⟩ := hone b hb
          have s1 := hsp (a - c.op.dist) a (by omega) (by omega) t6
          have s2 := hsp e (e + c.op.dist) (by omega) (by omega) t7
          exact line_far hw hM ht0 hδ hρ hj w1 w2 w3 w4 w5 w6 (hout m m0 m1 (by omega) j hj)
      refine ⟨finHit h, ?_, k1, k2, ?_⟩
      · rw [List.filter_map]
        rw [List.filter_congr (q := fun h => decide (a ≤ g.fine * i + h.startFreqIndex ∧
              g.fine * i + h.startFreqIndex < e)) fun b hb => ?_, e1]
        · rfl
        · rcases hside b hb with ⟨s1, s2, rfl⟩ | ⟨s1, s2, -⟩
          · rw [decide_eq_true ⟨s1, s2⟩]
            exact (measures_iff ..).2 k1
          · rw [decide_eq_false s1]
            show measures f r δ ρ (finHit b) = false
            rw [Bool.eq_false_iff]
            exact fun h => s2 ((measures_iff ..).1 h)
      · intro b' hb' hnot
        obtain ⟨b, hb, rfl⟩ := List.mem_map.1 hb'
        rcases hside b hb with ⟨-, -, rfl⟩ | ⟨-, -, s3⟩
        · exact absurd k1 hnot
        · exact s3

end

theorem forall₂_right {A B : Type} {Q : B → Prop} {l : List A} {vs : List B}
    (h : List.Forall₂ (fun _ b => Q b) l vs) : ∀ b ∈ vs, Q b := by
  induction h with
  | nil => simp
  | cons h _ ih =>
    intro b hb
    rcases List.mem_cons.1 hb with rfl | hb
    · exact h
    · exact ih b hb

theorem mapAll_map {A B C : Type} (f : B → Outcome C) (g : A → B) (l : List A) :
    mapAll f (l.map g) = mapAll (fun a => f (g a)) l := by
  induction l with
  | nil => rfl
  | cons a l ih => simp only [List.map_cons, mapAll, ih]

/-- The events of a cadence, from the hits of its recordings. -/
theorem cadence_seen {A : Type} (search : A → Outcome (ScanHits ℚ ℚ)) (f r δ ρ t0 t1 : ℚ)
    (on : List (A × Geometry)) (offs : List (List (A × Geometry)))
    (hon2 : 2 ≤ on.length) (hon : on.length ≤ 1000) (ht : t1 - t0 ≤ 1000000) (hρr : ρ ≤ |r|)
    (hsmall : 1 / 100 * (2 * δ + 2 * ρ * (t1 - t0)) +
      10 * (2 * ρ / (1 / 100000000 + 2 * (|r| - ρ) ^ 2)) ^ 2 ≤ 49)
    (hobs : ∀ x ∈ on, ∃ sc, search x.1 = .ok sc ∧ Seen f r δ ρ t0 t1 sc ∧
      ∃ h, sc.hits.filter (measures f r δ ρ) = [h] ∧ Measures f r δ ρ h ∧
        |h.startTime - x.2.begins| ≤ 1 / 100000)
    (hoff : ∀ x ∈ offs.flatten, ∃ sc, search x.1 = .ok sc ∧
      Seen f r δ ρ t0 t1 sc ∧ ∀ b ∈ sc.hits, ¬ Measures f r δ ρ b) :
    ∃ (es : List (Event ℚ ℚ)) (hs : List (Hit ℚ ℚ)),
      (mapAll (mapAll search) ((on :: offs).map (List.map Prod.fst))).bind (eventSearch ieee exMap) =
        .ok es ∧
      (es.map Event.hits).filter (fun l => l.any (measures f r δ ρ)) = [hs] ∧
      List.Forall₂ (fun x h => Measures f r δ ρ h ∧ |h.startTime - x.2.begins| ≤ 1 / 100000) on hs := by
  obtain ⟨von, hv1, hv2⟩ := Cadence.mapAll_exists (l := on) (f := fun x : A × Geometry =>
      search x.1)
    (R := fun x sc => Seen f r δ ρ t0 t1 sc ∧ ∃ h, sc.hits.filter (measures f r δ ρ) = [h] ∧
      Measures f r δ ρ h ∧ |h.startTime - x.2.begins| ≤ 1 / 100000) hobs
  obtain ⟨voff, hw1, hw2⟩ := Cadence.mapAll_exists (l := offs)
    (f := mapAll fun x : A × Geometry => search x.1)
    (R := fun _ scs => ∀ sc ∈ scs, Seen f r δ ρ t0 t1 sc ∧ ∀ b ∈ sc.hits, ¬ Measures f r δ ρ b)
    (fun l hl => by
    obtain ⟨vs, a1, a2⟩ := Cadence.mapAll_exists (l := l) (f := fun x : A × Geometry =>
        search x.1)
      (R := fun _ sc => Seen f r δ ρ t0 t1 sc ∧ ∀ b ∈ sc.hits, ¬ Measures f r δ ρ b)
      (fun x hx => hoff x (List.mem_flatten.2 ⟨l, hl, hx⟩))
    exact ⟨vs, a1, forall₂_right a2⟩)
  have hoffs := forall₂_right hw2
  have hons : ∀ sc ∈ von, Seen f r δ ρ t0 t1 sc ∧ (sc.hits.filter (measures f r δ ρ)).length = 1 := by
    refine forall₂_right (l := on) (hv2.imp fun x sc ⟨h1, h, h2, _⟩ => ⟨h1, by rw [h2]; rfl⟩)
  have hall : ∀ a ∈ hitsOf (von :: voff), InRange a ∧ t0 ≤ a.startTime ∧
      a.startTime + a.duration ≤ t1 := by
    intro a ha
    obtain ⟨sc, hsc, ha⟩ := List.mem_flatMap.1 ha
    rw [List.flatten_cons, List.mem_append] at hsc
    have hseen : Seen f r δ ρ t0 t1 sc := by
      rcases hsc with hsc | hsc
      · exact (hons sc hsc).1
      · obtain ⟨scs, h1, h2⟩ := List.mem_flatten.1 hsc
        exact (hoffs scs h1 sc h2).1
    exact ⟨hseen.range a ha, hseen.time a ha⟩
  have hin : ∀ a ∈ hitsOf [von], ∃ sc ∈ von, a ∈ sc.hits := by
    intro a ha
    obtain ⟨sc, hsc, ha⟩ := List.mem_flatMap.1 ha
    simp only [List.flatten_cons, List.flatten_nil, List.append_nil] at hsc
    exact ⟨sc, hsc, ha⟩
  have hlen : (von.flatMap fun sc => sc.hits.filter (measures f r δ ρ)).length = von.length := by
    have : ∀ l : List (ScanHits ℚ ℚ), (∀ sc ∈ l, (sc.hits.filter (measures f r δ ρ)).length = 1) →
        (l.flatMap fun sc => sc.hits.filter (measures f r δ ρ)).length = l.length := by
      intro l
      induction l with
      | nil => intro _; rfl
      | cons sc l ih =>
        intro hl
        rw [List.flatMap_cons, List.length_append, hl sc (by simp), ih fun b hb => hl b (by simp [hb]),
          List.length_cons, Nat.add_comm]
    exact this von fun sc hsc => (hons sc hsc).2
  have hvlen := hv2.length_eq
  obtain ⟨es, r1, r2⟩ := C141_drifting_signal_float_partial f r δ ρ t0 t1 von voff (by omega) ht
    (fun a ha => (hall a ha).1) (fun a ha => (hall a ha).2) (measures f r δ ρ)
    (fun sc hsc => (hons sc hsc).2.le) (fun a _ hs => (measures_iff ..).1 hs) hρr hsmall
    (fun b hb hs => by
      obtain ⟨sc, hsc, hb⟩ := hin b hb
      exact (hons sc hsc).1.far b hb fun hm => by rw [(measures_iff ..).2 hm] at hs; cases hs)
    (fun b hb => by
      obtain ⟨sc, hsc, hb⟩ := List.mem_flatMap.1 hb
      obtain ⟨scs, h1, h2⟩ := List.mem_flatten.1 hsc
      obtain ⟨h3, h4⟩ := hoffs scs h1 sc h2
      exact h3.far b hb (h4 b hb))
    (by rw [hlen]; omega)
  refine ⟨es, _, ?_, r2, ?_⟩
  · rw [mapAll_map]
    have e : mapAll (fun l => mapAll search (List.map Prod.fst l)) (on :: offs) = .ok (von :: voff) := by
      simp only [mapAll, mapAll_map]
      rw [hv1, hw1]
      rfl
    rw [e]
    exact r1
  · clear hv1 hw1 hw2 r1 r2 hlen hons hall hin hvlen hoffs hobs hoff hon hon2
    induction hv2 with
    | nil => exact .nil
    | cons h _ ih =>
      obtain ⟨-, b, b1, b2, b3⟩ := h
      rw [List.flatMap_cons, b1]
      exact .cons ⟨b2, b3⟩ ih

/-- The scan of a recording without the signal. -/
theorem seen_off {c : Config R24 Dev} {f r δ ρ t0 t1 M : ℚ}
    {rec : Recording R24} {g : Geometry} {one : Int → Int → Int → Prop} {lone : Int → Int → Int → Int → Int → Prop}
    {H : Nat → List (Hit (F32 R24) Fl)} {dur : ℚ} {res : Outcome (ScanHits (F32 R24) Fl)}
    (h1 : res = .ok ⟨.fin g.tstart, .fin dur, (List.range g.num.toNat).flatMap H⟩)
    (h2 : ∀ i : Nat, (i : Int) < g.num → ChannelSays c rec g one lone i (H i))
    (hv : rec.Valid c g) (hw : Within c g t0 t1 M) (hM : M ≤ 999)
    (ht0 : t0 ≤ t1) (ht : t1 - t0 ≤ 1000000) (hδ : 1 ≤ δ) (hρ : M / 4000000 ≤ ρ) (hr : |r| ≤ 1000)
    (hq : ∀ i, 0 ≤ i → i < g.num → NotNear c rec g f r t0 t1 (5100 + 2 * (δ + ρ * (t1 - t0))) i) :
    ∃ sc, res.bind finScan = .ok sc ∧ Seen f r δ ρ t0 t1 sc ∧
      ∀ b ∈ sc.hits, ¬ Measures f r δ ρ b := by
  obtain ⟨G, e1, e2⟩ := scan_seen (f := f) (r := r) (δ := δ) (ρ := ρ) h1 h2 hv hw hM ht0 ht hδ hρ hr
  have hall : ∀ b ∈ (List.range g.num.toNat).flatMap G, ∃ j : Nat, (j : Int) < g.num ∧ b ∈ G j := by
    intro b hb
    obtain ⟨j, hj, hb⟩ := List.mem_flatMap.1 hb
    rw [List.mem_range] at hj
    exact ⟨j, by omega, hb⟩
  refine ⟨_, e1, ⟨fun b hb => ?_, fun b hb => ?_, fun b hb _ => ?_⟩, fun b hb => ?_⟩ <;>
    obtain ⟨j, hj, hb⟩ := hall b hb
  · exact ((e2 j hj).1 b hb).1
  · exact ((e2 j hj).1 b hb).2
  · exact ((e2 j hj).2.1 (hq j (by omega) hj) b hb).2
  · exact ((e2 j hj).2.1 (hq j (by omega) hj) b hb).1

/-- The scan of a recording of the signal. -/
theorem seen_on {c : Config R24 Dev} {f r δ ρ t0 t1 M : ℚ}
    {rec : Recording R24} {g : Geometry} {one : Int → Int → Int → Prop} {lone : Int → Int → Int → Int → Int → Prop}
    {H : Nat → List (Hit (F32 R24) Fl)} {dur : ℚ} {res : Outcome (ScanHits (F32 R24) Fl)}
    (h1 : res = .ok ⟨.fin g.tstart, .fin dur, (List.range g.num.toNat).flatMap H⟩)
    (h2 : ∀ i : Nat, (i : Int) < g.num → ChannelSays c rec g one lone i (H i))
    (hv : rec.Valid c g) (hw : Within c g t0 t1 M) (hM : M ≤ 999)
    (ht0 : t0 ≤ t1) (ht : t1 - t0 ≤ 1000000) (hδ : 1 ≤ δ) (hρ : M / 4000000 ≤ ρ) (hr : |r| ≤ 1000)
    (hobs : ∃ i k d, (0 ≤ i ∧ i < g.num) ∧
      ((one i k d ∧ OneTone c.ar rec.file g.T g.fine i c.ro (rec.noise i).1 (rec.noise i).2 c.op k d) ∨
        ∃ a e, lone i k d a e ∧
          LoneTone c.ar rec.file g.T g.fine i c.ro (rec.noise i).1 (rec.noise i).2 c.op k d a e ∧
          FarOutside c g f r t0 t1 (5100 + 2 * (δ + ρ * (t1 - t0))) i a e) ∧
      |g.freq k - (f + r * g.begins)| ≤ δ - 1 ∧ |g.rate d - r| ≤ ρ - M / 4000000 ∧
      ∀ i', 0 ≤ i' → i' < g.num → i' ≠ i →
        NotNear c rec g f r t0 t1 (5100 + 2 * (δ + ρ * (t1 - t0))) i') :
    ∃ sc, res.bind finScan = .ok sc ∧ Seen f r δ ρ t0 t1 sc ∧
      ∃ h, sc.hits.filter (measures f r δ ρ) = [h] ∧ Measures f r δ ρ h ∧
        |h.startTime - g.begins| ≤ 1 / 100000 := by
  obtain ⟨G, e1, e2⟩ := scan_seen (f := f) (r := r) (δ := δ) (ρ := ρ) h1 h2 hv hw hM ht0 ht hδ hρ hr
  have hall : ∀ b ∈ (List.range g.num.toNat).flatMap G, ∃ j : Nat, (j : Int) < g.num ∧ b ∈ G j := by
    intro b hb
    obtain ⟨j, hj, hb⟩ := List.mem_flatMap.1 hb
    rw [List.mem_range] at hj
    exact ⟨j, by omega, hb⟩
  obtain ⟨n, n1, hq, h, g1, g2, g3, g4⟩ : ∃ n : Nat, (n : Int) < g.num ∧
      (∀ i', 0 ≤ i' → i' < g.num → i' ≠ n →
        NotNear c rec g f r t0 t1 (5100 + 2 * (δ + ρ * (t1 - t0))) i') ∧
      ∃ h, (G n).filter (measures f r δ ρ) = [h] ∧ Measures f r δ ρ h ∧
        |h.startTime - g.begins| ≤ 1 / 100000 ∧
        ∀ b ∈ G n, ¬ Measures f r δ ρ b → ∀ t, t0 ≤ t → t ≤ t1 →
          5100 + (δ + ρ * (t1 - t0)) ≤ |trackAt b t - (f + r * t)| := by
    obtain ⟨i, k, d, ⟨i0, i1⟩, htone, hfk, hrd, hq⟩ := hobs
    obtain ⟨n, rfl⟩ := Int.eq_ofNat_of_zero_le i0
    refine ⟨n, i1, hq, ?_⟩
    rcases htone with ⟨hof, htone⟩ | ⟨a, e, hof, htone, hout⟩
    · obtain ⟨h, g1, g2, g3⟩ := (e2 n i1).2.2.1 k d hof htone hfk hrd
      refine ⟨h, ?_, g2, g3, fun b hb hnot => ?_⟩
      · rw [g1, List.filter_cons_of_pos ((measures_iff ..).2 g2), List.filter_nil]
      · rw [g1, List.mem_singleton] at hb
        rw [hb] at hnot
        exact absurd g2 hnot
    · exact (e2 n i1).2.2.2 k d a e hof htone hout hfk hrd
  refine ⟨_, e1, ⟨fun b hb => ?_, fun b hb => ?_, fun b hb hnot => ?_⟩, h, ?_, g2, g3⟩
  · obtain ⟨j, hj, hb⟩ := hall b hb
    exact ((e2 j hj).1 b hb).1
  · obtain ⟨j, hj, hb⟩ := hall b hb
    exact ((e2 j hj).1 b hb).2
  · obtain ⟨j, hj, hb⟩ := hall b hb
    by_cases hjn : j = n
    · subst hjn
      exact g4 b hb hnot
    · exact ((e2 j hj).2.1 (hq j (by omega) hj (by omega)) b hb).2
  · dsimp only
    rw [List.filter_flatMap, flatMap_one _ _ n (by omega) fun j hj hne => ?_]
    · exact g1
    · rw [List.filter_eq_nil_iff]
      intro b hb hmb
      exact ((e2 j (by omega)).2.1 (hq j (by omega) (by omega) (by omega)) b hb).1
        ((measures_iff ..).1 hmb)

theorem Within.le {c : Config R24 Dev} {g : Geometry} {t0 t1 M : ℚ} (h : Within c g t0 t1 M) : t0 ≤ t1 := by
  have := h.begins
  have := h.ends
  have : 0 ≤ g.tsamp * g.T := mul_nonneg h.sampled.le (by positivity)
  linarith

/-- **C144 (part).** A cadence of files: 2 to 1000 recordings of the first target, any number of
targets and recordings besides, all between `t0` and `t1`. A signal is at `f + r * t` Hz at time `t`.
In every recording of the first target one coarse channel holds it, to within `δ - 1` Hz and a little
less than `ρ` Hz/s, as the only signal above the threshold; no other coarse channel of those
recordings, and none of the recordings of other targets, has anything above the threshold that comes
near it (within 5.1 kHz and twice the errors). Then the search of the files for hits and of the hits
for events succeeds and reports exactly one event with hits of the signal, which has one hit of every
recording of the first target, in order.

Missing: float overflow and underflow; desmeared drifts; more than 512 time steps; the noise estimates
are given. -/
theorem C144_signal_reported_partial {R53 : Rounding 53} {c : Config R24 Dev} (hc : c.Valid R53)
    (f r δ ρ t0 t1 M : ℚ) (on : List (Recording R24 × Geometry))
    (offs : List (List (Recording R24 × Geometry)))
    (hvalid : ∀ x ∈ (on :: offs).flatten, x.1.Valid c x.2 ∧ Within c x.2 t0 t1 M)
    (hon2 : 2 ≤ on.length) (hon : on.length ≤ 1000) (ht : t1 - t0 ≤ 1000000) (hM : M ≤ 999)
    (hδ : 1 ≤ δ) (hρ : M / 4000000 ≤ ρ) (hr : |r| ≤ 1000) (hρr : ρ ≤ |r|)
    (hsmall : 1 / 100 * (2 * δ + 2 * ρ * (t1 - t0)) +
      10 * (2 * ρ / (1 / 100000000 + 2 * (|r| - ρ) ^ 2)) ^ 2 ≤ 49)
    (hobs : ∀ x ∈ on, Observes c x.1 x.2 f r (δ - 1) (ρ - M / 4000000) t0 t1
      (5100 + 2 * (δ + ρ * (t1 - t0))))
    (hoff : ∀ x ∈ offs.flatten, ∀ i, 0 ≤ i → i < x.2.num →
      Quiet c x.1 x.2 f r t0 t1 (5100 + 2 * (δ + ρ * (t1 - t0))) i) :
    ∃ (es : List (Event ℚ ℚ)) (hs : List (Hit ℚ ℚ)),
      searchCadence R53 c ((on :: offs).map (List.map Prod.fst)) = .ok es ∧
      (es.map Event.hits).filter (fun l => l.any (measures f r δ ρ)) = [hs] ∧
      List.Forall₂ (fun x h => Measures f r δ ρ h ∧ |h.startTime - x.2.begins| ≤ 1 / 100000) on hs := by
  have ht0 : t0 ≤ t1 := by
    obtain ⟨x, hx⟩ := List.exists_mem_of_length_pos (show 0 < on.length by omega)
    exact (hvalid x (by simp [hx])).2.le
  refine cadence_seen (fun rec => (searchFile R53 c rec).bind finScan) f r δ ρ t0 t1 on offs hon2 hon ht hρr hsmall (fun x hx => ?_) fun x hx => ?_
  · obtain ⟨v1, v2⟩ := hvalid x (by simp [hx])
    obtain ⟨H, dur, h1, h2⟩ := file_facts R53 hc v1
    obtain ⟨i, k, d, i0, i1, htone, hfk, hrd, hq⟩ := hobs x hx
    exact seen_on h1 h2 v1 v2 hM ht0 ht hδ hρ hr ⟨i, k, d, ⟨i0, i1⟩, Or.inl ⟨trivial, htone⟩, hfk, hrd,
        fun i' j0 j1 j2 => Or.inl (hq i' j0 j1 j2)⟩
  · obtain ⟨v1, v2⟩ := hvalid x (by rw [List.flatten_cons]; exact List.mem_append_right _ hx)
    obtain ⟨H, dur, h1, h2⟩ := file_facts R53 hc v1
    exact seen_off h1 h2 v1 v2 hM ht0 ht hδ hρ hr fun i i0 i1 => Or.inl (hoff x hx i i0 i1)

/-- **C144, among other signals.** As `C144_signal_reported_partial`, when coarse channels also hold
other signals, in any number and of any strength, flagged or not. In every recording of the first target
some channels of a coarse channel hold the signal as the only one above the threshold, with quiet channels
on both sides; all lines from elsewhere in that coarse channel stay away from the signal, by 5.1 kHz and
twice the errors. In the other coarse channels, and in recordings of other targets, a quiet range of
channels around the signal is enough. The search succeeds and reports exactly one event with hits of the
signal, which has one hit of every recording of the first target, in order.

Missing: as there. -/
theorem C144_signal_among_others_partial {R53 : Rounding 53} {c : Config R24 Dev} (hc : c.Valid R53)
    (f r δ ρ t0 t1 M : ℚ) (on : List (Recording R24 × Geometry))
    (offs : List (List (Recording R24 × Geometry)))
    (hvalid : ∀ x ∈ (on :: offs).flatten, x.1.Valid c x.2 ∧ Within c x.2 t0 t1 M)
    (hon2 : 2 ≤ on.length) (hon : on.length ≤ 1000) (ht : t1 - t0 ≤ 1000000) (hM : M ≤ 999)
    (hδ : 1 ≤ δ) (hρ : M / 4000000 ≤ ρ) (hr : |r| ≤ 1000) (hρr : ρ ≤ |r|)
    (hsmall : 1 / 100 * (2 * δ + 2 * ρ * (t1 - t0)) +
      10 * (2 * ρ / (1 / 100000000 + 2 * (|r| - ρ) ^ 2)) ^ 2 ≤ 49)
    (hobs : ∀ x ∈ on, ObservesAmong c x.1 x.2 f r (δ - 1) (ρ - M / 4000000) t0 t1
      (5100 + 2 * (δ + ρ * (t1 - t0))))
    (hoff : ∀ x ∈ offs.flatten, ∀ i, 0 ≤ i → i < x.2.num →
      NotNear c x.1 x.2 f r t0 t1 (5100 + 2 * (δ + ρ * (t1 - t0))) i) :
    ∃ (es : List (Event ℚ ℚ)) (hs : List (Hit ℚ ℚ)),
      searchCadence R53 c ((on :: offs).map (List.map Prod.fst)) = .ok es ∧
      (es.map Event.hits).filter (fun l => l.any (measures f r δ ρ)) = [hs] ∧
      List.Forall₂ (fun x h => Measures f r δ ρ h ∧ |h.startTime - x.2.begins| ≤ 1 / 100000) on hs := by
  have ht0 : t0 ≤ t1 := by
    obtain ⟨x, hx⟩ := List.exists_mem_of_length_pos (show 0 < on.length by omega)
    exact (hvalid x (by simp [hx])).2.le
  refine cadence_seen (fun rec => (searchFile R53 c rec).bind finScan) f r δ ρ t0 t1 on offs hon2 hon ht hρr hsmall (fun x hx => ?_) fun x hx => ?_
  · obtain ⟨v1, v2⟩ := hvalid x (by simp [hx])
    obtain ⟨H, dur, h1, h2⟩ := file_facts R53 hc v1
    obtain ⟨i, k, d, a, e, i0, i1, htone, hfk, hrd, hout, hq⟩ := hobs x hx
    exact seen_on h1 h2 v1 v2 hM ht0 ht hδ hρ hr ⟨i, k, d, ⟨i0, i1⟩,
        Or.inr ⟨a, e, trivial, htone, hout⟩, hfk, hrd, hq⟩
  · obtain ⟨v1, v2⟩ := hvalid x (by rw [List.flatten_cons]; exact List.mem_append_right _ hx)
    obtain ⟨H, dur, h1, h2⟩ := file_facts R53 hc v1
    exact seen_off h1 h2 v1 v2 hM ht0 ht hδ hρ hr fun i i0 i1 => hoff x hx i i0 i1

end Bliss.Event
