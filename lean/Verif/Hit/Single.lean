import Verif.Comp.Local
import Verif.Hit.EndToEndFloat

/-!
# A search that finds one signal (C144)

When all lines above the threshold belong to one group, the search of a coarse channel reports one hit.
What every hit says about time, frequency and drift, whatever else is in the channel.
-/

namespace Bliss.Hit

open Bliss.Drift Bliss.Comp Bliss.Float Bliss.Nd Bliss.H5Read
open Bliss.Scan (Scan DOps Attrs openFile added)

/-! ## Specification -/

section
variable {F : Type} [Zero F] [Add F] [Sub F] [Div F] [IntCast F] [LT F] [DecidableLT F] [OfNat F 2]

/-- The SNR of the line that starts in channel `x.2` with the searched drift number `x.1`, where drift
`j` is displaced by `off j t` channels at time step `t`: its mean power above `floor`, in units of the
noise of `T` averaged samples. -/
def lineSnr (ar : Arith F Fl) (grid : Nat → Int → F) (N T : Nat) (ro : RateOptions)
    (off : Nat → Nat → Int) (noisePower floor : F) (x : Coord) : F :=
  (pathSum grid 1 (path N T (decide (0 ≤ ro.low + x.1 * ro.step)) (ro.low + x.1 * ro.step) 1
    (off x.1.toNat) x.2) / ((T : Int) : F) - floor) / driftNoise ar noisePower T

/-- The searched drifts are followed in straight lines, to the nearest channel. -/
def Straight (T : Nat) (ro : RateOptions) (off : Nat → Nat → Int) : Prop :=
  ∀ j : Nat, (j : Int) < (ro.high - ro.low).tdiv ro.step →
    StraightPath (ro.low + j * ro.step) T (2 ^ (-23 : ℤ) + 2 ^ (-51 : ℤ)) (off j)

/-- A searched drift and a channel. -/
def Cell (N : Nat) (ro : RateOptions) (x : Coord) : Prop :=
  0 ≤ x.1 ∧ x.1 < (ro.high - ro.low).tdiv ro.step ∧ 0 ≤ x.2 ∧ x.2 < N

/-- All lines above the threshold belong to one group, that of the line `x₀`: each is reached from it by
steps to lines above half the threshold whose drift number and channel together differ by less than the
distance of the search. -/
def OneGroup (ar : Arith F Fl) (grid : Nat → Int → F) (N T : Nat) (ro : RateOptions)
    (noisePower floor : F) (o : Options F) (x₀ : Coord) : Prop :=
  ∀ off, Straight T ro off → ∀ x, Cell N ro x →
    o.thr < lineSnr ar grid N T ro off noisePower floor x →
    Relation.ReflTransGen (fun p q => Cell N ro q ∧
      o.thr / 2 < lineSnr ar grid N T ro off noisePower floor q ∧ l1 p q < o.dist) x₀ x

/-- No line is above the threshold. -/
def NoLine (ar : Arith F Fl) (grid : Nat → Int → F) (N T : Nat) (ro : RateOptions)
    (noisePower floor : F) (o : Options F) : Prop :=
  ∀ off, Straight T ro off → ∀ x, Cell N ro x →
    ¬ o.thr < lineSnr ar grid N T ro off noisePower floor x

/-- No line that starts in the channels from `lo` to `hi` is above half the threshold. -/
def QuietBand (ar : Arith F Fl) (grid : Nat → Int → F) (N T : Nat) (ro : RateOptions)
    (noisePower floor : F) (o : Options F) (lo hi : Int) : Prop :=
  ∀ off, Straight T ro off → ∀ x, Cell N ro x → lo ≤ x.2 → x.2 < hi →
    ¬ o.thr / 2 < lineSnr ar grid N T ro off noisePower floor x

/-! ## Proofs -/

omit [Add F] [IntCast F] [Zero F] in
/-- All clusters are the one that holds `x₀`. -/
theorem single_cluster [Zero F] (s : Search F) (fltMin : F) (hhalf : ∀ v : F, s.thr < v → s.thr / 2 < v)
    {cs : List (Protohit F)} (h : findThresh s fltMin = .ok cs) {x₀ : Coord}
    (hx₀ : s.grid.has x₀) (habove : s.thr < s.snr x₀)
    (hlink : ∀ x, s.grid.has x → s.thr < s.snr x → Relation.ReflTransGen
      (fun p q => s.grid.has q ∧ s.thr / 2 < s.snr q ∧ l1 p q < s.dist) x₀ x) :
    cs.length ≤ 1 := by
  obtain ⟨cs', e1, e2, e3, e4⟩ := C12_clusters_disjoint_complete_partial s fltMin
  rw [h] at e1
  obtain rfl := Outcome.ok.inj e1
  obtain ⟨e5, e6⟩ := e4 hhalf
  have hall : ∀ c ∈ cs, x₀ ∈ c.locations := by
    intro c hc
    obtain ⟨x, hx, ht⟩ := e6 c hc
    have hchain := hlink x (e3 c hc x hx).1 ht
    obtain ⟨c₀, hc₀, hx₀c⟩ := List.mem_flatMap.1 (e5 x₀ hx₀ habove)
    have hin : x ∈ c₀.locations := by
      clear ht hx
      induction hchain with
      | refl => exact hx₀c
      | tail _ hq ih => exact C14_near_cells_merged_partial s fltMin h hc₀ ih hq.1 hq.2.1 hq.2.2
    have : c = c₀ := by
      by_contra hne
      exact absurd hin (by
        have hd := List.nodup_flatMap.1 e2
        haveI : Std.Symm (Function.onFun List.Disjoint fun x : Protohit F => x.locations) :=
          ⟨fun _ _ hab => List.disjoint_symm hab⟩
        have := hd.2.forall hc hc₀ hne
        exact fun hin => this hx hin)
    rw [this]; exact hx₀c
  rcases cs with _ | ⟨a, _ | ⟨b, l⟩⟩
  · simp
  · simp
  · have hd := (List.nodup_flatMap.1 e2).2
    have := (List.pairwise_cons.1 hd).1 b (by simp)
    exact absurd (hall b (by simp)) (this (hall a (by simp)))

/-- What the search of a coarse channel returns. -/
theorem driftSearch_facts (R24 : Rounding 24) (R53 : Rounding 53) (hz : Fl → Fl)
    (ar : Arith F Fl) (fltMin : F) (junk : Coord → Int) (cc : Channel Fl) {inp : Input F}
    {grid : Nat → Int → F} {mask : Nat → Int → UInt8} (hin : Holds inp grid mask)
    (hview : inp.specOffset = 0 ∧ inp.rfiOffset = 0) {ro : RateOptions} (hT : 2 ≤ inp.timeSteps)
    (hT' : (inp.timeSteps : Int) - 1 ≤ 2 ^ 24) (hstep : ro.step ≠ 0)
    (hne : 0 < (ro.high - ro.low).tdiv ro.step)
    (hrange : ∀ i : Nat, (i : Int) < (ro.high - ro.low).tdiv ro.step →
      |ro.low + i * ro.step| < 2 ^ 22 ∧ 2 * |ro.low + i * ro.step| ≤ inp.numChannels)
    (hplain : ro.desmear = false ∨ ∀ i : Nat, (i : Int) < (ro.high - ro.low).tdiv ro.step →
      |ro.low + i * ro.step| ≤ (inp.timeSteps : Int) - 1)
    (noisePower floor : F) (o : Options F) (hm : o.method = .connectedComponents)
    (htrans : ∀ a b c : F, a < b → b < c → a < c) (hirr : ∀ a : F, ¬ a < a)
    (hhalf : ∀ v : F, o.thr < v → o.thr / 2 < v) (hmin : ∀ v : F, o.thr < v → fltMin < v) :
    ∃ (hs : List (Hit F Fl)) (off : Nat → Nat → Int),
      driftSearch R24 R53 hz ar fltMin junk cc inp ro noisePower floor o = .ok hs ∧
      Straight inp.timeSteps ro off ∧
      (∀ h ∈ hs, ∃ (i : Nat) (m : Int), (i : Int) < (ro.high - ro.low).tdiv ro.step ∧
        0 ≤ m ∧ m < inp.numChannels ∧ h.rateIndex = i ∧
        Cell inp.numChannels ro (h.rateIndex, h.startFreqIndex) ∧
        o.thr < lineSnr ar grid inp.numChannels inp.timeSteps ro off noisePower floor
          (h.rateIndex, h.startFreqIndex) ∧ (∃ v, h.power = ar.toD v) ∧
        h.startFreqMHz = ar.add cc.fch1 (ar.mul cc.foff (ar.ofInt m)) ∧
        h.driftRate = hz (.fin (R24.r (((ro.low + i * ro.step : Int) : ℚ) /
          ((inp.timeSteps : ℚ) - 1)))) ∧
        h.startTime = ar.mul (ar.mul (ar.mul cc.tstart (ar.ofInt 24)) (ar.ofInt 60)) (ar.ofInt 60) ∧
        h.duration = ar.mul cc.tsamp (ar.ofInt inp.timeSteps) ∧ h.coarseChannel = cc.number ∧
        ∃ (n : Nat) (c : Int), Cell inp.numChannels ro ((n : Int), c) ∧
          (let line := path inp.numChannels inp.timeSteps (decide (0 ≤ ro.low + n * ro.step))
              (ro.low + n * ro.step) 1 (off n) c
          h.rfi.lookup 2 = some (pathFlags mask 2 line % 256) ∧
          h.rfi.lookup 1 = some (pathFlags mask 1 line % 256)) ∧
          ∀ lo hi : Int, lo ≤ hi → o.dist ≤ hi - lo → (∀ x, Cell inp.numChannels ro x → lo ≤ x.2 →
              x.2 < hi →
              ¬ o.thr / 2 < lineSnr ar grid inp.numChannels inp.timeSteps ro off noisePower floor x) →
            (m < lo ∧ h.startFreqIndex < lo ∧ c < lo) ∨ (hi ≤ m ∧ hi ≤ h.startFreqIndex ∧ hi ≤ c)) ∧
      ∀ x₀, Cell inp.numChannels ro x₀ →
        o.thr < lineSnr ar grid inp.numChannels inp.timeSteps ro off noisePower floor x₀ →
        (∀ x, Cell inp.numChannels ro x →
          o.thr < lineSnr ar grid inp.numChannels inp.timeSteps ro off noisePower floor x →
          Relation.ReflTransGen (fun p q => Cell inp.numChannels ro q ∧
            o.thr / 2 < lineSnr ar grid inp.numChannels inp.timeSteps ro off noisePower floor q ∧
            l1 p q < o.dist) x₀ x) → hs.length ≤ 1 := by
  obtain ⟨a, rates, off, h1, h2, h3⟩ :=
    C07_defined_partial R24 R53 hz hin hview hT hT' hstep hne hrange
  obtain ⟨cs, hs, e1, e2, e3, e4⟩ := hitSearch_covers ar fltMin junk cc (planeOf inp a rates)
    noisePower floor o hm htrans hirr (by simp [planeOf]) hhalf hmin
  have hcell : ∀ x, (planeOf inp a rates).grid.has x ↔ Cell inp.numChannels ro x := by
    rintro ⟨x1, x2⟩
    simp only [Grid.has, Cell, planeOf, h2]
  have hsnr : ∀ x, Cell inp.numChannels ro x →
      (toSearch ar (planeOf inp a rates) noisePower floor o).snr x =
        lineSnr ar grid inp.numChannels inp.timeSteps ro off noisePower floor x := by
    rintro ⟨xi, c⟩ ⟨y1, y2, y3, y4⟩
    dsimp only at y1 y2 y3 y4
    obtain ⟨i, rfl⟩ := Int.eq_ofNat_of_zero_le y1
    have hget := List.getElem?_eq_getElem (show i < rates.length by omega)
    obtain ⟨_, g2, g3, g4, g5⟩ := h3 i _ hget
    have hdes : rates[i].desmear = 1 := by
      have hrg := hrange i (by omega)
      refine (rates_plain h1 hT hT' hget (by omega)).2 ?_
      rcases hplain with h | h
      · exact Or.inl h
      · exact Or.inr (h i (by omega))
    have := (g5 c y3 y4).1
    rw [hdes] at this
    have hv := snr_cell (ar := ar) (noisePower := noisePower) (floor := floor) (o := o) hget this
    rw [hdes, mul_one, show (1 : Int).toNat = 1 from rfl, g2] at hv
    exact hv
  refine ⟨hs, off, ?_, ?_, ?_, ?_⟩
  · simp only [driftSearch, h1, Outcome.bind_ok]; exact e2
  · intro i hi
    have hget := List.getElem?_eq_getElem (show i < rates.length by omega)
    obtain ⟨_, g2, _, g4, _⟩ := h3 i _ hget
    rw [← g2]; exact g4
  · intro h hh
    obtain ⟨j, hj, rfl⟩ := List.getElem_of_mem hh
    have hlen := e3.length_eq
    have hd := (List.forall₂_iff_get.1 e3).2 j (by omega) hj
    simp only [List.get_eq_getElem] at hd
    obtain ⟨lo, k1, k2, k3, k4, k5, k6, k7, k8⟩ := C15_extent_brackets_peak_partial
      (toSearch ar (planeOf inp a rates) noisePower floor o) fltMin hhalf hmin e1
      (List.getElem_mem (l := cs) (n := j) (by omega))
    obtain ⟨x1, x2, x3, x4⟩ := (hcell _).1 hd.inPlane
    dsimp only at x1 x2
    obtain ⟨i, hi⟩ := Int.eq_ofNat_of_zero_le x1
    have hget := List.getElem?_eq_getElem (show i < rates.length by omega)
    have hrate := (rates_plain h1 hT hT' hget (by have := hrange i (by omega); omega)).1
    obtain ⟨r, r1, r2, _⟩ := hd.rate
    rw [hi] at r1
    simp only [planeOf, Int.toNat_natCast, List.getElem?_map, hget, Option.map_some,
      Option.some.injEq] at r1
    have hN : (toSearch ar (planeOf inp a rates) noisePower floor o).grid.chans = inp.numChannels := rfl
    rw [hN] at k8
    have hb : 0 ≤ cs[j].binwidth := by omega
    refine ⟨i, cs[j].indexCenter.2, by omega, ?_, ?_, hi, (hcell _).1 hd.inPlane, ?_,
      ⟨_, hd.power⟩, hd.freq, ?_, hd.time.1, ?_, hd.channel, ?_⟩
    · rw [k6]; dsimp only; omega
    · rw [k6]; dsimp only; omega
    · rw [← hsnr _ ((hcell _).1 hd.inPlane)]
      have hab := hd.above
      obtain ⟨r, r1, _, r3⟩ := hd.rate
      rw [r3] at hab
      have : (toSearch ar (planeOf inp a rates) noisePower floor o).noise hs[j].rateIndex =
          noiseOf ar noisePower (planeOf inp a rates).steps r := by
        simp only [toSearch]
        rw [r1]
      unfold Search.snr
      rw [this]
      exact hab
    · rw [r2, ← r1]; exact hrate
    · rw [hd.time.2]; rfl
    · obtain ⟨x, rest, z1, z2, z3, -⟩ := C16_counts_at_first_cell_partial _ fltMin hhalf hmin e1
        (List.getElem_mem (l := cs) (n := j) (by omega))
      obtain ⟨cs', u1, -, u3, -⟩ := C12_clusters_disjoint_complete_partial
        (toSearch ar (planeOf inp a rates) noisePower floor o) fltMin
      rw [e1] at u1
      obtain rfl := Outcome.ok.inj u1
      have hxm : x ∈ cs[j].locations := by rw [z1]; exact List.mem_cons_self
      obtain ⟨hx, -⟩ := u3 _ (List.getElem_mem (l := cs) (n := j) (by omega)) x hxm
      obtain ⟨xi, y⟩ := x
      have hxc := (hcell _).1 hx
      obtain ⟨y1, y2, y3, y4⟩ := hxc
      dsimp only at y1 y2 y3 y4
      obtain ⟨n, rfl⟩ := Int.eq_ofNat_of_zero_le y1
      have hgn := List.getElem?_eq_getElem (show n < rates.length by omega)
      obtain ⟨_, g2, g3, g4, g5⟩ := h3 n _ hgn
      obtain ⟨p1, l, hi', ro', q1, q2, q3, q4, q5, q6⟩ := g5 y y3 y4
      have hdes : rates[n].desmear = 1 := by
        have hrg := hrange n (by omega)
        refine (rates_plain h1 hT hT' hgn (by omega)).2 ?_
        rcases hplain with h | h
        · exact Or.inl h
        · exact Or.inr (h n (by omega))
      have hc := hd.counts _ _ _ z3
      simp only [q1, q2, q3, Option.getD_some] at hc
      rw [q4, q5, q6, g2, hdes] at hc
      refine ⟨n, y, ⟨y1, y2, y3, y4⟩, ⟨hc.1, hc.2.2⟩, fun lo' hi' hle hdist hq => ?_⟩
      rw [hd.peak.2, k6]
      dsimp only
      rcases cluster_split (toSearch ar (planeOf inp a rates) noisePower floor o) fltMin hhalf hle hdist
        (fun x hx h1 h2 => by
          have hx' := (hcell _).1 hx
          rw [hsnr _ hx']; exact hq x hx' h1 h2) e1
        (List.getElem_mem (l := cs) (n := j) (by omega)) with hl | hl
      · have h1 := hl _ k1
        have h2 := hl _ k2
        have h3 := hl _ hxm
        dsimp only at h1 h2 h3
        left; refine ⟨?_, ?_, ?_⟩ <;> omega
      · have h1 := hl _ k1
        have h2 := hl _ k2
        have h3 := hl _ hxm
        dsimp only at h1 h2 h3
        right; refine ⟨?_, ?_, ?_⟩ <;> omega
  · intro x₀ hx₀ hab hlink
    rw [← e3.length_eq]
    refine single_cluster (toSearch ar (planeOf inp a rates) noisePower floor o) fltMin hhalf e1
      ((hcell _).2 hx₀) (by rw [hsnr _ hx₀]; exact hab) fun x hx ht => ?_
    have hx' := (hcell _).1 hx
    rw [hsnr _ hx'] at ht
    exact Relation.ReflTransGen.mono (fun p q ⟨q1, q2, q3⟩ =>
      ⟨(hcell _).2 q1, by rw [hsnr _ q1]; exact q2, q3⟩) _ _ (hlink x hx' ht)

/-- The part of `searchChannel` after the channel has been read. -/
def channelHits {Dev P : Type} (R24 : Rounding 24) (R53 : Rounding 53) (ar : Arith F Fl) (o : DOps Fl)
    (fltMin : F) (junkHit : Coord → Int) (junk : Int → F) (f : H5Read.File F)
    (c : Scan.Channel F Fl Dev P) (ro : RateOptions) (noisePower floor : F) (op : Options F)
    (heap : Heap F) (flags : Heap UInt8) : Outcome (List (Hit F Fl)) := do
  let (h1, d) ← evalData f (fun _ => .ub) c junk heap
  let (h2, m) ← (match c.data with
    | .file offset count => readMask (flagsFile f) 0 offset count flags
    | .other _ => .ub)
  let inp ← inputOf h1 d h2 m
  driftSearch R24 R53 (driftHz o c.hdr.foff c.hdr.tsamp) ar fltMin junkHit
    ⟨c.fch1, c.hdr.foff, c.hdr.tstart, c.hdr.tsamp, c.number⟩ inp ro noisePower floor op

theorem searchChannel_eq {Dev P : Type} (R24 : Rounding 24) (R53 : Rounding 53) (ar : Arith F Fl)
    (o : DOps Fl) (devOk : Dev → Bool) (fltMin : F) (junkHit : Coord → Int) (junk : Int → F)
    (f : H5Read.File F) (s : Scan F Fl Dev P) (i : Int) (ro : RateOptions) (noisePower floor : F)
    (op : Options F) (heap : Heap F) (flags : Heap UInt8) :
    searchChannel R24 R53 ar o devOk fltMin junkHit junk f s i ro noisePower floor op heap flags =
      (Scan.read o devOk s i).2.bind fun c =>
        channelHits R24 R53 ar o fltMin junkHit junk f c ro noisePower floor op heap flags := rfl

end

/-! ## A coarse channel of a file -/

/-- Specification: coarse channel `i` of the file, of `fine` channels, holds one signal above the
threshold: the tone of C106 from channel `k`, drifting by `d`, and the lines that belong to it. -/
def OneTone {R : Rounding 24} (ar : Arith (F32 R) Fl) (f : H5Read.File (F32 R)) (T : Nat)
    (fine i : Int) (ro : RateOptions) (noisePower floor : F32 R) (op : Options (F32 R)) (k d : Int) :
    Prop :=
  ∃ (j : Nat) (ch : Nat → Int) (p : ℚ), (j : Int) < (ro.high - ro.low).tdiv ro.step ∧
    d = ro.low + j * ro.step ∧ 0 < p ∧
    HasTone32 f T (fine * i) (fine * (i + 1)) k d ch p
      (halfLevel floor.val op.thr.val (driftNoise ar noisePower T).val) ∧
    (0 ≤ floor.val ∧ floor.val ≤ p / 2) ∧ 0 < (driftNoise ar noisePower T).val ∧
    op.thr.val * (1 + 1 / 512) < ((∑ t ∈ Finset.range T, (f.at t (ch t)).val) / T - floor.val) /
      (driftNoise ar noisePower T).val ∧
    OneGroup ar (fun t c => f.at t (fine * i + c)) fine.toNat T ro noisePower floor op
      (j, k - fine * i)

/-- Specification: what a hit says, up to rounding: it started in channel `m` of the file, at the
start of the recording, drifted by `d` channels and was observed to the end. -/
structure Says {R : Rounding 24} (T : Nat) (fch1 foff tsamp tstart : ℚ) (m d : Int)
    (h : Hit (F32 R) Fl) (freq rate start dur : ℚ) : Prop where
  freqEq : h.startFreqMHz = .fin freq
  rateEq : h.driftRate = .fin rate
  startEq : h.startTime = .fin start
  durEq : h.duration = .fin dur
  freq : |freq - (fch1 + foff * m)| ≤ 2 ^ (-50 : ℤ) * (|fch1| + |foff| * m)
  rate : |rate - d * foff * 1000000 / (((T : ℚ) - 1) * tsamp)| ≤
    2 ^ (-22 : ℤ) * |d * foff * 1000000 / (((T : ℚ) - 1) * tsamp)|
  start : |start - tstart * 86400| ≤ 2 ^ (-50 : ℤ) * |tstart * 86400|
  dur : |dur - tsamp * T| ≤ 2 ^ (-52 : ℤ) * |tsamp * T|

theorem start_error (R : Rounding 53) (x : ℚ) :
    |R.r (R.r (R.r (x * 24) * 60) * 60) - x * 86400| ≤ 2 ^ (-50 : ℤ) * |x * 86400| := by
  have h1 := R.err (x * 24)
  have h2 := R.err (R.r (x * 24) * 60)
  have h3 := R.err (R.r (R.r (x * 24) * 60) * 60)
  have e : (2 : ℚ) ^ (1 - ((53 : ℕ) : ℤ)) = 1 / 4503599627370496 := by norm_num
  have e' : (2 : ℚ) ^ (-50 : ℤ) = 4 / 4503599627370496 := by norm_num
  rw [e] at h1 h2 h3
  rw [e']
  have n1 : |x * 24| = 24 * |x| := by rw [abs_mul]; norm_num; ring
  have n0 : |x * 86400| = 86400 * |x| := by rw [abs_mul]; norm_num; ring
  rw [n1] at h1
  rw [n0]
  generalize R.r (R.r (R.r (x * 24) * 60) * 60) = a3 at *
  generalize R.r (R.r (x * 24) * 60) = a2 at *
  generalize R.r (x * 24) = a1 at *
  have hx := abs_nonneg x
  have b1 : |a1| ≤ 24 * |x| * (1 + 1 / 4503599627370496) := by
    have := abs_sub_abs_le_abs_sub a1 (x * 24)
    rw [n1] at this; linarith
  have m1 : |a1 * 60| = 60 * |a1| := by rw [abs_mul]; norm_num; ring
  have m2 : |a2 * 60| = 60 * |a2| := by rw [abs_mul]; norm_num; ring
  rw [m1] at h2
  rw [m2] at h3
  have b2 : |a2| ≤ 60 * |a1| * (1 + 1 / 4503599627370496) := by
    have := abs_sub_abs_le_abs_sub a2 (a1 * 60)
    rw [m1] at this; linarith
  have key : a3 - x * 86400 = (a3 - a2 * 60) + 60 * (a2 - a1 * 60) + 3600 * (a1 - x * 24) := by ring
  rw [key]
  have t1 := abs_add_le ((a3 - a2 * 60) + 60 * (a2 - a1 * 60)) (3600 * (a1 - x * 24))
  have t2 := abs_add_le (a3 - a2 * 60) (60 * (a2 - a1 * 60))
  rw [abs_mul, abs_of_pos (by norm_num : (0 : ℚ) < 60)] at t2
  rw [abs_mul, abs_of_pos (by norm_num : (0 : ℚ) < 3600)] at t1
  linarith

section
variable {Dev P : Type}

/-- The hits of a coarse channel whose samples, with any flags, are in memory. -/
theorem search_facts (R24 : Rounding 24) (R53 : Rounding 53)
    (ar : Arith (F32 R24) Fl) (o : DOps Fl) (hdbl : Doubles R53 ar o)
    (fltMin : F32 R24) (junkHit : Coord → Int) {f : H5Read.File (F32 R24)} {a : Attrs Fl} {T : Nat}
    {N : Int} {fch1 foff tsamp : ℚ} (hf : Filterbank f a T N fch1 foff tsamp) {tstart : ℚ}
    (hts : a.hdr.tstart = .fin tstart) {fine i : Int} (c6 : 0 ≤ fine) (hi : 0 ≤ i)
    (c7 : fine * i + fine ≤ N) {inp : Input (F32 R24)} {mask : Nat → Int → UInt8}
    (e7 : Holds inp (fun t c => f.at t (fine * i + c)) mask)
    (e4 : inp.specOffset = 0 ∧ inp.rfiOffset = 0) (e5 : inp.timeSteps = T)
    (e6 : (inp.numChannels : Int) = fine) {cc : Channel Fl}
    (hcc : cc.foff = a.hdr.foff ∧ cc.tstart = a.hdr.tstart ∧ cc.tsamp = a.hdr.tsamp)
    (c5 : cc.fch1 = o.add a.fch1 (o.mul a.hdr.foff (o.ofInt (fine * i))))
    {ro : RateOptions} (hro : Searches ro T fine)
    (hne : 0 < (ro.high - ro.low).tdiv ro.step) (hT : T ≤ 512) (noisePower floor : F32 R24)
    (op : Options (F32 R24)) (hm : op.method = .connectedComponents) (hmin : 0 ≤ fltMin.val)
    (hthr : fltMin.val ≤ op.thr.val) :
    ∃ hs, driftSearch R24 R53 (driftHz o a.hdr.foff a.hdr.tsamp) ar fltMin junkHit cc inp ro
        noisePower floor op = .ok hs ∧
      (∀ h ∈ hs, ∃ (m d : Int) (freq rate start dur : ℚ), fine * i ≤ m ∧ m < fine * (i + 1) ∧
        (∃ j : Nat, (j : Int) < (ro.high - ro.low).tdiv ro.step ∧ d = ro.low + j * ro.step) ∧
        (∃ v, h.power = ar.toD v) ∧ Says T fch1 foff tsamp tstart m d h freq rate start dur ∧
        ∃ (n : Nat) (c : Int) (off : Nat → Int), (n : Int) < (ro.high - ro.low).tdiv ro.step ∧
          (0 ≤ c ∧ c < fine) ∧
          StraightPath (ro.low + n * ro.step) T (2 ^ (-23 : ℤ) + 2 ^ (-51 : ℤ)) off ∧
          (let line := path fine.toNat T (decide (0 ≤ ro.low + n * ro.step)) (ro.low + n * ro.step) 1
              off c
          h.rfi.lookup 2 = some (pathFlags mask 2 line % 256) ∧
          h.rfi.lookup 1 = some (pathFlags mask 1 line % 256)) ∧
          ∀ lo hi : Int, lo ≤ hi → op.dist ≤ hi - lo →
            QuietBand ar (fun t c => f.at t (fine * i + c)) fine.toNat T ro noisePower floor op
              (lo - fine * i) (hi - fine * i) →
            (m < lo ∧ fine * i + h.startFreqIndex < lo ∧ fine * i + c < lo) ∨
              (hi ≤ m ∧ hi ≤ fine * i + h.startFreqIndex ∧ hi ≤ fine * i + c)) ∧
      (NoLine ar (fun t c => f.at t (fine * i + c)) fine.toNat T ro noisePower floor op →
        hs = []) ∧
      ∀ k d, OneTone ar f T fine i ro noisePower floor op k d → ∃ h freq rate start dur, hs = [h] ∧
        Says T fch1 foff tsamp tstart k d h freq rate start dur ∧
        h.startFreqIndex = k - fine * i := by
  obtain ⟨k1, k2, k3⟩ := hcc
  have hm0 : 0 ≤ fine * i := Int.mul_nonneg c6 hi
  have hm1 : fine * (i + 1) = fine * i + fine := by ring
  have hfn : fine.toNat = inp.numChannels := by omega
  have hhalf := F32.half_lt (thr := op.thr) (hmin.trans hthr)
  have hlow : ∀ v : F32 R24, op.thr < v → fltMin < v := fun v hv => lt_of_le_of_lt hthr hv
  have hT2 := hro.steps.1
  obtain ⟨hs, off, q1, q2, q3, q4⟩ := driftSearch_facts R24 R53
    (driftHz o a.hdr.foff a.hdr.tsamp) ar fltMin junkHit cc e7 e4 (ro := ro)
    (by rw [e5]; exact hT2) (by rw [e5]; exact hro.steps.2) hro.step hne
    (fun x hx => by rw [e6]; exact hro.range x hx) (by rw [e5]; exact hro.plain) noisePower floor op
    hm (fun x y z => lt_trans (a := x.val)) (fun x => lt_irrefl x.val) hhalf hlow
  rw [← hfn, e5] at q3 q4
  rw [e5] at q2
  have hsaid : ∀ h ∈ hs, ∀ (j : Nat) (n : Int), 0 ≤ n → n < fine →
      h.startFreqMHz = ar.add cc.fch1 (ar.mul cc.foff (ar.ofInt n)) →
      h.driftRate = driftHz o a.hdr.foff a.hdr.tsamp
        (.fin (R24.r (((ro.low + j * ro.step : Int) : ℚ) / ((T : ℚ) - 1)))) →
      h.startTime = ar.mul (ar.mul (ar.mul cc.tstart (ar.ofInt 24)) (ar.ofInt 60)) (ar.ofInt 60) →
      h.duration = ar.mul cc.tsamp (ar.ofInt (T : Nat)) →
      ∃ freq rate start dur, Says T fch1 foff tsamp tstart (fine * i + n) (ro.low + j * ro.step) h
        freq rate start dur := by
    intro h _ j n hn0 hn1 w1 w2 w3 w4
    obtain ⟨b, hb⟩ := Int.eq_ofNat_of_zero_le hm0
    obtain ⟨u, rfl⟩ := Int.eq_ofNat_of_zero_le hn0
    have hN := hf.channels.2
    have i24 : R53.r ((24 : Int) : ℚ) = 24 := by
      rw [R53.int _ (by norm_num)]; norm_num
    have i60 : R53.r ((60 : Int) : ℚ) = 60 := by
      rw [R53.int _ (by norm_num)]; norm_num
    have iT : R53.r (((T : Nat) : Int) : ℚ) = T := by
      rw [R53.int _ (by rw [Nat.abs_cast]; norm_num; omega)]; simp
    refine ⟨R53.r (R53.r (fch1 + R53.r (foff * b)) + R53.r (foff * u)),
      R53.r (R53.r (R53.r (R24.r (((ro.low + j * ro.step : Int) : ℚ) / ((T : ℚ) - 1)) * foff) *
        1000000) / tsamp), R53.r (R53.r (R53.r (tstart * 24) * 60) * 60), R53.r (tsamp * T),
      ?_, ?_, ?_, ?_, ?_, ?_, ?_, ?_⟩
    · rw [w1, c5, k1, hf.first, hf.width, hdbl.sofInt, hdbl.smul, hdbl.sadd, hdbl.ofInt, hdbl.mul,
        hdbl.add, hb, R53.int _ (by rw [Nat.abs_cast]; omega),
        R53.int _ (by rw [Nat.abs_cast]; omega)]
      simp
    · rw [w2, driftHz, hf.width, hf.length, hdbl.lit, hdbl.smul, hdbl.smul,
        hdbl.sdiv _ _ hf.sampled]
    · rw [w3, k2, hts, hdbl.ofInt, hdbl.ofInt, hdbl.mul, hdbl.mul, hdbl.mul, i24, i60]
    · rw [w4, k3, hf.length, hdbl.ofInt, hdbl.mul, iT]
    · rw [hb]
      have := frequency_error R53 fch1 foff b u
      push_cast at this ⊢
      exact this
    · have e : ((ro.low + j * ro.step : Int) : ℚ) * foff * 1000000 / (((T : ℚ) - 1) * tsamp) =
          ((ro.low + j * ro.step : Int) : ℚ) / ((T : ℚ) - 1) * foff * 1000000 / tsamp := by
        rw [div_mul_eq_mul_div, div_mul_eq_mul_div, div_div]
      rw [e]
      exact rate_error R24 R53 _ _ _
    · exact start_error R53 tstart
    · have := R53.err (tsamp * T)
      rw [show (2 : ℚ) ^ (1 - ((53 : ℕ) : ℤ)) = 2 ^ (-52 : ℤ) by norm_num] at this
      rw [mul_comm (2 ^ (-52 : ℤ) : ℚ)]
      exact this
  refine ⟨hs, ?_, ?_, ?_, ?_⟩
  · exact q1
  · intro h hh
    obtain ⟨j, n, w1, w2, w3, -, -, -, w7, w8, w9, w10, w11, -, n', y, ⟨-, y1, y2, y3⟩, w12, w13⟩ := q3 h hh
    have hn : n < fine := by omega
    obtain ⟨freq, rate, start, dur, hsay⟩ := hsaid h hh j n w2 hn w8 w9 w10 w11
    refine ⟨fine * i + n, _, freq, rate, start, dur, by omega, by omega, ⟨j, w1, rfl⟩, w7, hsay,
      n', y, off n', y1, ⟨y2, by dsimp only at y3; omega⟩, q2 n' y1, w12, fun lo hi hle hdist hq => ?_⟩
    have := w13 (lo - fine * i) (hi - fine * i) (by omega) (by omega) (hq off q2)
    omega
  · intro hno
    refine List.eq_nil_iff_forall_not_mem.2 fun h hh => ?_
    obtain ⟨j, n, w1, w2, w3, w4, w5, w6, -⟩ := q3 h hh
    exact hno off q2 _ w5 w6
  · rintro k d ⟨j, ch, p, t1, t2, t3, htone, t5, t6, t7, t8⟩
    obtain ⟨b1, b2⟩ := htone.start
    obtain ⟨b3, b4⟩ := htone.stop
    rw [hm1] at b2 b4
    have hline : ToneLine inp.timeSteps (k - fine * i) d (fun t => ch t - fine * i) := by
      rw [e5]
      refine ⟨fun t ht => ?_⟩
      have := htone.line.near t ht
      push_cast
      rwa [show (ch t : ℚ) - fine * i - (k - fine * i + d * t / ((T : ℚ) - 1)) =
        (ch t : ℚ) - (k + d * t / ((T : ℚ) - 1)) by ring]
    have hback : ∀ c : Int, fine * i + (c - fine * i) = c := fun _ => by ring
    have hdom : Prominent inp.numChannels inp.timeSteps
        (fun t c => ((fun t c => f.at t (fine * i + c)) t c : F32 R24).val)
        (fun t => ch t - fine * i) p := by
      rw [e5]
      refine ⟨fun t ht => ?_, fun t ht c h0 hc hne => ?_⟩
      · simp only [hback]
        exact htone.tone t ht
      · rw [e6] at hc
        exact htone.rest t ht (fine * i + c) (by omega) (by omega) (by omega)
    obtain ⟨hs', h, p1, p2, p3, p4, p5, p6, p7, p8⟩ := C87_tone_recovered_float_partial R24 R53
      (driftHz o a.hdr.foff a.hdr.tsamp) ar fltMin junkHit cc e7 e4 (ro := ro)
      (by rw [e5]; exact hT2) (by rw [e5]; exact hT) hro.step
      (fun x hx => by rw [e6]; exact hro.range x hx) (by rw [e5]; exact hro.plain) t1 t2
      ⟨by omega, by rw [e6]; omega⟩ ⟨by omega, by rw [e6]; omega⟩ hline t3 hdom noisePower floor t5 op
      hm (by rw [e5]; exact t6) hmin hthr rfl (by rw [e5]; simp only [hback]; exact t7)
    rw [q1] at p1
    obtain rfl := Outcome.ok.inj p1
    obtain ⟨-, p10⟩ := p8 (by
      rw [e5]
      exact htone.window (by rw [e6]; omega))
    obtain ⟨j', n, w1, w2, w3, w4, w5, w6, w7, w8, w9, w10, w11, -⟩ := q3 h p2
    rw [p3, p4] at w5 w6
    have hlen := q4 _ w5 w6 fun x hx ht => t8 off q2 x hx ht
    have h1 : hs = [h] := by
      rcases hs with _ | ⟨y, _ | ⟨z, l⟩⟩
      · simp at p2
      · rw [List.mem_singleton] at p2; rw [p2]
      · simp at hlen
    obtain ⟨freq, rate, start, dur, hsay⟩ := hsaid h p2 j (k - fine * i) (by omega) (by omega) p10
      (by rw [p5, e5, t2]) w10 w11
    rw [hback, ← t2] at hsay
    exact ⟨h, freq, rate, start, dur, h1, hsay, p3⟩

/-- The hits of a coarse channel of a file. -/
theorem channel_facts (R24 : Rounding 24) (R53 : Rounding 53)
    (ar : Arith (F32 R24) Fl) (o : DOps Fl) (hdbl : Doubles R53 ar o) (devOk : Dev → Bool)
    (fltMin : F32 R24) (junkHit : Coord → Int) (junk : Int → F32 R24) (heap : Heap (F32 R24))
    (flags : Heap UInt8) {f : H5Read.File (F32 R24)} {a : Attrs Fl} {T : Nat} {N : Int}
    {fch1 foff tsamp : ℚ} (hf : Filterbank f a T N fch1 foff tsamp) {tstart : ℚ}
    (hts : a.hdr.tstart = .fin tstart) {dev : Dev}
    (hdev : devOk dev = true) {fine : Int} (hfine : 0 ≤ fine) {s : Scan (F32 R24) Fl Dev P}
    (hopen : openFile o dev a (H5Shape.getDataShape f.toDataset) fine = .ok s)
    {ops : List (Scan.Op (F32 R24) Fl Dev P)} (hops : added ops = []) {i : Int}
    (hi : 0 ≤ i ∧ i < s.num) {ro : RateOptions} (hro : Searches ro T s.fine)
    (hne : 0 < (ro.high - ro.low).tdiv ro.step) (hT : T ≤ 512) (noisePower floor : F32 R24)
    (op : Options (F32 R24)) (hm : op.method = .connectedComponents) (hmin : 0 ≤ fltMin.val)
    (hthr : fltMin.val ≤ op.thr.val) :
    ∃ hs, searchChannel R24 R53 ar o devOk fltMin junkHit junk f (Scan.run o devOk s ops) i ro
        noisePower floor op heap flags = .ok hs ∧
      (∀ h ∈ hs, ∃ (m d : Int) (freq rate start dur : ℚ), s.fine * i ≤ m ∧ m < s.fine * (i + 1) ∧
        (∃ j : Nat, (j : Int) < (ro.high - ro.low).tdiv ro.step ∧ d = ro.low + j * ro.step) ∧
        (∃ v, h.power = ar.toD v) ∧ Says T fch1 foff tsamp tstart m d h freq rate start dur ∧
        ∀ lo hi : Int, lo ≤ hi → op.dist ≤ hi - lo →
          QuietBand ar (fun t c => f.at t (s.fine * i + c)) s.fine.toNat T ro noisePower floor op
            (lo - s.fine * i) (hi - s.fine * i) →
          (m < lo ∧ s.fine * i + h.startFreqIndex < lo) ∨
            (hi ≤ m ∧ hi ≤ s.fine * i + h.startFreqIndex)) ∧
      (NoLine ar (fun t c => f.at t (s.fine * i + c)) s.fine.toNat T ro noisePower floor op →
        hs = []) ∧
      ∀ k d, OneTone ar f T s.fine i ro noisePower floor op k d → ∃ h freq rate start dur, hs = [h] ∧
        Says T fch1 foff tsamp tstart k d h freq rate start dur ∧
        h.startFreqIndex = k - s.fine * i := by
  obtain ⟨c, c1, c2, c3, c4, c5, c6, c7⟩ := open_channel o devOk hf hdev hfine hopen hops hi.1 hi.2
  have hm0 : 0 ≤ s.fine * i := Int.mul_nonneg c6 hi.1
  obtain ⟨h1, dd, h2, m, inp, e1, e2, e3, e4, e5, e6, e7⟩ := window_input f T N hf.dims hf.labels
    hf.nchans (s.fine * i) s.fine hm0 c6 c7 junk heap flags
  obtain ⟨hs, q1, q2, q3, q4⟩ := search_facts R24 R53 ar o hdbl fltMin junkHit hf hts c6 hi.1 c7 e7 e4 e5 e6
    (cc := ⟨c.fch1, c.hdr.foff, c.hdr.tstart, c.hdr.tsamp, c.number⟩) (by rw [c4]; exact ⟨rfl, rfl, rfl⟩) c5 hro
    hne hT noisePower floor op hm hmin hthr
  refine ⟨hs, ?_, fun h hh => ?_, q3, q4⟩
  · unfold searchChannel
    rw [c1, Outcome.bind_ok]
    unfold evalData
    rw [c2]
    simp only [e1, e2, e3, Outcome.bind_ok]
    rw [c4] at q1 ⊢
    exact q1
  · obtain ⟨m, d, freq, rate, start, dur, w1, w2, w3, w4, w5, n, c, off, -, -, -, -, w6⟩ := q2 h hh
    refine ⟨m, d, freq, rate, start, dur, w1, w2, w3, w4, w5, fun lo hi hle hdist hq => ?_⟩
    have := w6 lo hi hle hdist hq
    omega

end

end Bliss.Hit
