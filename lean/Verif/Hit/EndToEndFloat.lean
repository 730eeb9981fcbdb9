import Verif.Hit.EndToEnd
import Verif.Hit.RecoverFloat

/-!
# From the filterbank file to the hits file, in float arithmetic (C106)

The statement of `C106_tone_in_file_partial` with floats that round (`F32`) in place of exact numbers.
-/

namespace Bliss.Hit

open Bliss.Drift Bliss.Comp Bliss.Float Bliss.Nd Bliss.H5Read
open Bliss.Scan (Scan DOps Attrs openFile added)
open Bliss.File (Conv Framing Signal writeHits readHits)

/-- The file `f` holds, in its channels `lo` to `hi - 1`, a tone on a line from channel `k` drifting by
`d` channels, of a power between `p` and `2 p`. Everything else is at most half as strong, and along
every line parallel to the tone the mean power, and a 4096th more, is at most `level`. -/
structure HasTone32 {R : Rounding 24} (f : H5Read.File (F32 R)) (T : Nat) (lo hi : Int)
    (k d : Int) (ch : Nat → Int) (p level : ℚ) : Prop where
  line : ToneLine T k d ch
  start : lo ≤ k ∧ k < hi
  stop : lo ≤ k + d ∧ k + d < hi
  tone : ∀ t < T, p ≤ (f.at t (ch t)).val ∧ (f.at t (ch t)).val ≤ 2 * p
  rest : ∀ t < T, ∀ c : Int, lo ≤ c → c < hi → c ≠ ch t →
    0 ≤ (f.at t c).val ∧ (f.at t c).val ≤ p / 2
  clear : ∀ δ : Int, δ ≠ 0 → (∑ t ∈ Finset.range T,
    if lo ≤ ch t + δ ∧ ch t + δ < hi then (f.at t (ch t + δ)).val else 0) / T * (1 + 1 / 4096) ≤ level

theorem HasTone32.window {R : Rounding 24} {f : H5Read.File (F32 R)} {T : Nat} {lo hi k d : Int}
    {ch : Nat → Int} {p level : ℚ} (h : HasTone32 f T lo hi k d ch p level) {N : Nat}
    (hN : hi = lo + N) :
    Clear N T (fun t c => (f.at t (lo + c)).val) (fun t => ch t - lo) level := by
  intro δ hδ
  refine le_trans (le_of_eq ?_) (h.clear δ hδ)
  congr 2
  refine Finset.sum_congr rfl fun t _ => ?_
  dsimp only
  rw [show lo + (ch t - lo + δ) = ch t + δ by ring]
  by_cases hc : lo ≤ ch t + δ ∧ ch t + δ < hi
  · rw [if_pos hc, if_pos (by omega)]
  · rw [if_neg hc, if_neg (by omega)]

/-- A background below the noise floor by `1/2048` of it is clear. -/
theorem HasTone32.of_background {R : Rounding 24} {f : H5Read.File (F32 R)} {T : Nat} {lo hi k d : Int}
    {ch : Nat → Int} {p floor thr noise : ℚ} (hT : 0 < T) (hf : 0 ≤ floor) (ht : 0 ≤ thr)
    (hn : 0 ≤ noise) (line : ToneLine T k d ch) (start : lo ≤ k ∧ k < hi)
    (stop : lo ≤ k + d ∧ k + d < hi)
    (tone : ∀ t < T, p ≤ (f.at t (ch t)).val ∧ (f.at t (ch t)).val ≤ 2 * p)
    (rest : ∀ t < T, ∀ c : Int, lo ≤ c → c < hi → c ≠ ch t →
      0 ≤ (f.at t c).val ∧ (f.at t c).val ≤ p / 2 ∧ (f.at t c).val ≤ floor * (1 - 1 / 2048)) :
    HasTone32 f T lo hi k d ch p (halfLevel floor thr noise) := by
  refine ⟨line, start, stop, tone, fun t htt c h0 h1 hne =>
    ⟨(rest t htt c h0 h1 hne).1, (rest t htt c h0 h1 hne).2.1⟩, fun δ hδ => ?_⟩
  refine mean_le hT (b := floor * (1 - 1 / 2048)) (fun t htt => ?_) ?_
  · split
    · rename_i hc
      exact (rest t htt _ hc.1 hc.2 (by omega)).2.2
    · exact mul_nonneg hf (by norm_num)
  · have := mul_nonneg ht hn
    unfold halfLevel
    linarith

/-- **C106 in float arithmetic.** As `C106_tone_in_file_partial`, with every float operation rounded in
any mode: for a file of 2 to 512 time steps whose tone is at least twice as strong as any other sample
of its coarse channel, varies by at most a factor of two and has an SNR above the threshold by `1/512`,
the hits written to a file and read back contain the tone, with the SNR of its mean power up to `1/1024`
of it, and no hit has a higher one.

Missing: desmeared drifts, coarse channels of more than `2²⁴` fine channels, overflow and underflow. -/
theorem C106_tone_in_file_float_partial {Dev P : Type} (R24 : Rounding 24) (R53 : Rounding 53)
    (ar : Arith (F32 R24) Fl) (o : DOps Fl) (hdbl : Doubles R53 ar o) (devOk : Dev → Bool)
    (fltMin : F32 R24) (junkHit : Coord → Int) (junk : Int → F32 R24) (heap : Heap (F32 R24))
    (flags : Heap UInt8) {f : H5Read.File (F32 R24)} {a : Attrs Fl} {T : Nat} {N : Int}
    {fch1 foff tsamp : ℚ} (hf : Filterbank f a T N fch1 foff tsamp) {dev : Dev}
    (hdev : devOk dev = true) {fine : Int} (hfine : 0 ≤ fine) {s : Scan (F32 R24) Fl Dev P}
    (hopen : openFile o dev a (H5Shape.getDataShape f.toDataset) fine = .ok s)
    {ops : List (Scan.Op (F32 R24) Fl Dev P)} (hops : added ops = []) {i : Int}
    (hi : 0 ≤ i ∧ i < s.num) (hsize : s.fine ≤ 2 ^ 24)
    {ro : RateOptions} (hro : Searches ro T s.fine) (hT : T ≤ 512) {k d : Int} {j : Nat}
    (hj : (j : Int) < (ro.high - ro.low).tdiv ro.step) (hd : d = ro.low + j * ro.step)
    {ch : Nat → Int} {noisePower floor : F32 R24} {p : ℚ} (hp : 0 < p) (op : Options (F32 R24))
    (hm : op.method = .connectedComponents)
    (htone : HasTone32 f T (s.fine * i) (s.fine * (i + 1)) k d ch p
      (halfLevel floor.val op.thr.val (driftNoise ar noisePower T).val))
    (hfloor : 0 ≤ floor.val ∧ floor.val ≤ p / 2)
    (hnoise : 0 < (driftNoise ar noisePower T).val) (hmin : 0 ≤ fltMin.val)
    (hthr : fltMin.val ≤ op.thr.val) {exact : ℚ}
    (hexact : exact = ((∑ t ∈ Finset.range T, (f.at t (ch t)).val) / T - floor.val) /
      (driftNoise ar noisePower T).val)
    (habove : op.thr.val * (1 + 1 / 512) < exact)
    {C : Conv (F32 R24) Fl} (hC : C.Lawful) {fr : Framing (Signal (F32 R24) Fl)}
    (hfr : fr.LawfulOn File.Signal.Fits) :
    ∃ (hs l : List (Hit (F32 R24) Fl)) (h : Hit (F32 R24) Fl) (freq rate : ℚ),
      searchChannel R24 R53 ar o devOk fltMin junkHit junk f (Scan.run o devOk s ops) i ro noisePower
        floor op heap flags = .ok hs ∧
      readHits C fr (writeHits C fr hs) = .ok l ∧ h ∈ l ∧
      h.startFreqMHz = .fin freq ∧ h.driftRate = .fin rate ∧
      |freq - (fch1 + foff * k)| ≤ 2 ^ (-50 : ℤ) * (|fch1| + |foff| * k) ∧
      |rate - d * foff * 1000000 / (((T : ℚ) - 1) * tsamp)| ≤
        2 ^ (-22 : ℤ) * |d * foff * 1000000 / (((T : ℚ) - 1) * tsamp)| ∧
      |h.snr.val - exact| ≤ exact / 1024 ∧
      ∀ h' ∈ l, h'.snr.val ≤ h.snr.val := by
  obtain ⟨c, c1, c2, c3, c4, c5, c6, c7⟩ := open_channel o devOk hf hdev hfine hopen hops hi.1 hi.2
  have hm0 : 0 ≤ s.fine * i := Int.mul_nonneg c6 hi.1
  have hm1 : s.fine * (i + 1) = s.fine * i + s.fine := by ring
  obtain ⟨h1, dd, h2, m, inp, e1, e2, e3, e4, e5, e6, e7⟩ := window_input f T N hf.dims hf.labels
    hf.nchans (s.fine * i) s.fine hm0 c6 c7 junk heap flags
  obtain ⟨b1, b2⟩ := htone.start
  obtain ⟨b3, b4⟩ := htone.stop
  rw [hm1] at b2 b4
  have hline : ToneLine inp.timeSteps (k - s.fine * i) d (fun t => ch t - s.fine * i) := by
    rw [e5]
    refine ⟨fun t ht => ?_⟩
    have := htone.line.near t ht
    push_cast
    rwa [show (ch t : ℚ) - s.fine * i - (k - s.fine * i + d * t / ((T : ℚ) - 1)) =
      (ch t : ℚ) - (k + d * t / ((T : ℚ) - 1)) by ring]
  have hback : ∀ c : Int, s.fine * i + (c - s.fine * i) = c := fun _ => by ring
  have hdom : Prominent inp.numChannels inp.timeSteps
      (fun t c => ((fun t c => f.at t (s.fine * i + c)) t c : F32 R24).val)
      (fun t => ch t - s.fine * i) p := by
    rw [e5]
    refine ⟨fun t ht => ?_, fun t ht c h0 hc hne => ?_⟩
    · simp only [hback]
      exact htone.tone t ht
    · rw [e6] at hc
      exact htone.rest t ht (s.fine * i + c) (by omega) (by omega) (by omega)
  obtain ⟨hs, h, q1, q2, q3, q4, q5, q6, q7, q8⟩ := C87_tone_recovered_float_partial R24 R53
    (driftHz o c.hdr.foff c.hdr.tsamp) ar fltMin junkHit
    ⟨c.fch1, c.hdr.foff, c.hdr.tstart, c.hdr.tsamp, c.number⟩ e7 e4 (ro := ro)
    (by rw [e5]; exact hro.steps.1) (by rw [e5]; exact hT) hro.step
    (fun x hx => by rw [e6]; exact hro.range x hx) (by rw [e5]; exact hro.plain) hj hd
    ⟨by omega, by rw [e6]; omega⟩ ⟨by omega, by rw [e6]; omega⟩ hline hp hdom noisePower floor hfloor op
    hm (by rw [e5]; exact hnoise) hmin hthr (exact := exact)
    (by rw [e5, hexact]; simp only [hback]) habove
  have hhalf := F32.half_lt (thr := op.thr) (hmin.trans hthr)
  have hlow : ∀ v : F32 R24, op.thr < v → fltMin < v := fun v hv => lt_of_le_of_lt hthr hv
  have hbw := driftSearch_binwidth hm (fun x y z => lt_trans (a := x.val)) (fun x => lt_irrefl x.val)
    hhalf hlow q1
  rw [e6] at hbw
  obtain ⟨l, r1, r2⟩ := readHits_whole hC hfr hs fun x hx => by
    have := hbw x hx
    rw [abs_of_nonneg this.1]
    omega
  obtain ⟨q9, q10⟩ := q8 (by
    rw [e5]
    exact htone.window (by rw [e6]; omega))
  obtain ⟨n, hn⟩ := Int.eq_ofNat_of_zero_le hm0
  obtain ⟨u, hu⟩ := Int.eq_ofNat_of_zero_le (show 0 ≤ k - s.fine * i by omega)
  have hN := hf.channels.2
  -- the stored hit
  obtain ⟨x, hx, rfl⟩ := List.getElem_of_mem q2
  have hlen := r2.length_eq
  have hkept := (List.forall₂_iff_get.1 r2).2 x hx (by omega)
  simp only [List.get_eq_getElem] at hkept
  obtain ⟨k1, k2, k3, -⟩ := hkept
  have hfreq : hs[x].startFreqMHz =
      .fin (R53.r (R53.r (fch1 + R53.r (foff * n)) + R53.r (foff * u))) := by
    rw [q10]
    dsimp only
    rw [c5, c4, hf.first, hf.width, hdbl.sofInt, hdbl.smul, hdbl.sadd, hdbl.ofInt, hdbl.mul, hdbl.add,
      hu, hn, R53.int _ (by rw [Nat.abs_cast]; omega), R53.int _ (by rw [Nat.abs_cast]; omega)]
    simp
  have hrate : hs[x].driftRate = .fin (R53.r (R53.r (R53.r (R24.r ((d : ℚ) / ((T : ℚ) - 1)) * foff) *
      1000000) / tsamp)) := by
    rw [q5, e5, driftHz, c4, hf.width, hf.length, hdbl.lit, hdbl.smul, hdbl.smul,
      hdbl.sdiv _ _ hf.sampled]
  refine ⟨hs, l, l[x]'(by omega), _, _, ?_, r1, List.getElem_mem _, k1.trans hfreq, k2.trans hrate,
    ?_, ?_, ?_, ?_⟩
  · unfold searchChannel
    rw [c1, Outcome.bind_ok]
    unfold evalData
    rw [c2]
    simp only [e1, e2, e3, Outcome.bind_ok]
    exact q1
  · have hk : (k : ℚ) = ((n + u : ℕ) : ℚ) := by
      have : k = ((n + u : ℕ) : Int) := by
        push_cast; omega
      rw [this]; simp
    rw [hk]
    exact frequency_error R53 fch1 foff n u
  · have e : (d : ℚ) * foff * 1000000 / (((T : ℚ) - 1) * tsamp) =
        (d : ℚ) / ((T : ℚ) - 1) * foff * 1000000 / tsamp := by
      rw [div_mul_eq_mul_div, div_mul_eq_mul_div, div_div]
    rw [e]
    exact rate_error R24 R53 _ _ _
  · rw [k3]
    exact q6
  · intro h' hh'
    obtain ⟨y, hy, rfl⟩ := List.getElem_of_mem hh'
    have hkept := (List.forall₂_iff_get.1 r2).2 y (by omega) hy
    simp only [List.get_eq_getElem] at hkept
    rw [hkept.2.2.1, k3]
    exact (q7 _ (List.getElem_mem _)).1

/-! ## A concrete case -/

/-- Double arithmetic from a rounding, with a noise of 1 for every drift. -/
def exArith32 (R24 : Rounding 24) (R : Rounding 53) : Arith (F32 R24) Fl where
  toD := fun x => .fin x.val
  toF := fun _ => ⟨1⟩
  ofInt := (exArith R).ofInt
  add := (exArith R).add
  mul := (exArith R).mul
  div := (exArith R).div
  abs := id
  sqrt := id
  million := .fin 1000000

theorem exDoubles32 (R24 : Rounding 24) (R : Rounding 53) :
    Doubles R (exArith32 R24 R) (exOps R) where
  add := fun _ _ => rfl
  mul := fun _ _ => rfl
  ofInt := fun _ => rfl
  sadd := fun _ _ => rfl
  smul := fun _ _ => rfl
  sdiv := fun _ _ _ => rfl
  sofInt := fun _ => rfl
  lit := rfl

/-- Conversions that keep the laws. -/
def exConv32 (R : Rounding 24) : Conv (F32 R) Fl where
  toD := fun x => .fin x.val
  toF := fun x => match x with | .fin q => ⟨q⟩ | _ => ⟨0⟩
  ofInt := fun n => ⟨R.r n⟩
  toInt := fun x => .ok x.val.num

theorem exConv32_lawful (R : Rounding 24) : (exConv32 R).Lawful where
  back := fun _ => rfl
  int := fun n hn => by
    simp only [exConv32]
    rw [R.int n (by simpa using hn)]
    simp

theorem signal_countable32 (R : Rounding 24) : Countable (Signal (F32 R) Fl) := by
  have := signal_countable
  have hi : Function.Injective (fun s : Signal (F32 R) Fl => (⟨s.frequency, s.index, s.driftSteps,
      s.driftRate, s.driftIndex, s.snr.val, s.numTimesteps, s.power.val, s.incoherentPower.val,
      s.startTime.val, s.duration.val, s.bandwidth.val, s.binwidth.val⟩ : Signal ℚ Fl)) := by
    intro x y h
    cases x; cases y
    simp_all [F32.ext_iff]
  exact hi.countable

/-- The file of the example of C106 with a background of 1/8. -/
def toneFile32 (R : Rounding 24) : H5Read.File (F32 R) where
  dims := [3, 1, 16]
  labels := some ["time", "feed_id", "frequency"]
  nchans := some 16
  sample := fun idx => ⟨if idx.getD 2 0 = 10 + idx.headD 0 then 11 - idx.headD 0 else 1 / 8⟩
  mask := none

theorem toneFile32_at (R : Rounding 24) (t c : Int) :
    ((toneFile32 R).at t c).val = if c = 10 + t then 11 - (t : ℚ) else 1 / 8 := by
  simp [File.at, named, toneFile32]

theorem toneFile32_tone (R : Rounding 24) {thr noise : ℚ} (hthr : 0 ≤ thr) (hn : 0 ≤ noise) :
    HasTone32 (toneFile32 R) 3 (8 * 1) (8 * (1 + 1)) 10 2 (fun t => 10 + t) 9
      (halfLevel (1 / 4) thr noise) := by
  refine .of_background (by norm_num) (by norm_num) hthr hn toneFile_tone.line (by norm_num)
    (by norm_num) (fun t ht => ?_) (fun t ht c _ _ hne => ?_)
  · rw [toneFile32_at, if_pos rfl]
    have h1 : t ≤ 2 := by omega
    have : (t : ℚ) ≤ 2 := by exact_mod_cast h1
    have : (0 : ℚ) ≤ t := by positivity
    push_cast
    constructor <;> linarith
  · rw [toneFile32_at, if_neg hne]
    norm_num

/-- The hypotheses of `C106_tone_in_file_float_partial` are met: the tone that starts in channel 10 of
`toneFile32` is found in coarse channel 1. -/
example (R24 : Rounding 24) (R53 : Rounding 53) :
    ∃ (s : Scan (F32 R24) Fl Unit Unit) (fr : Framing (Signal (F32 R24) Fl))
      (hs l : List (Hit (F32 R24) Fl)) (h : Hit (F32 R24) Fl) (freq rate : ℚ),
      searchChannel R24 R53 (exArith32 R24 R53) (exOps R53) (fun _ => true) 0 (fun _ => 0) (fun _ => 0)
        (toneFile32 R24) (Scan.run (exOps R53) (fun _ => true) s [.read 0]) 1 ⟨true, -2, 3, 1⟩ ⟨1⟩
        ⟨1 / 4⟩ ⟨.connectedComponents, ⟨5⟩, 1⟩ ⟨fun _ _ => none, 0⟩ ⟨fun _ _ => none, 0⟩ = .ok hs ∧
      readHits (exConv32 R24) fr (writeHits (exConv32 R24) fr hs) = .ok l ∧ h ∈ l ∧
      h.startFreqMHz = .fin freq ∧ h.driftRate = .fin rate ∧ |freq - 8399.99| ≤ 1 / 10 ^ 11 ∧
      |rate + 2000 / 36| ≤ 1 / 10000 ∧ |h.snr.val - 9.75| ≤ 1 / 100 := by
  obtain ⟨num, hnum⟩ := signal_countable32 R24
  have hopen : openFile (F := F32 R24) (P := Unit) (exOps R53) () toneAttrs
      (H5Shape.getDataShape (toneFile32 R24).toDataset) 8 = .ok
      { cache := fun _ => none, file := some (.ok [3, 1, 16]), pipeline := [], fch1 := .fin 8400
        hdr := toneAttrs.hdr, nchans := 16, fine := 8, num := 2, offset := 0, ntsteps := 3
        duration := (exOps R53).mul ((exOps R53).ofInt 3) (.fin 18), device := () } := by
    have hs := shape_usual (toneFile32 R24) 3 16 rfl rfl rfl
    rw [hs]
    rfl
  have hro : Searches ⟨true, -2, 3, 1⟩ 3 8 := by
    have hr : ((3 : Int) - (-2)).tdiv 1 = 5 := rfl
    refine ⟨by norm_num, by norm_num, fun i hi => ?_, Or.inr fun i hi => ?_⟩
    · have hi' : (i : Int) < 5 := by rw [← hr]; exact hi
      have h1 : |(-2 : Int) + i * 1| ≤ 2 := by rw [abs_le]; omega
      refine ⟨lt_of_le_of_lt h1 (by norm_num), ?_⟩
      show 2 * |(-2 : Int) + i * 1| ≤ 8
      omega
    · have hi' : (i : Int) < 5 := by rw [← hr]; exact hi
      have h1 : |(-2 : Int) + i * 1| ≤ 2 := by rw [abs_le]; omega
      exact h1
  have hsum : (∑ t ∈ Finset.range 3, ((toneFile32 R24).at t (10 + t)).val) = 30 := by
    simp only [toneFile32_at, if_true, Finset.sum_range_succ, Finset.sum_range_zero]
    norm_num
  classical
  obtain ⟨hs, l, h, freq, rate, r1, r2, r3, r4, r5, r6, r7, r8, -⟩ := C106_tone_in_file_float_partial
    (Dev := Unit) (P := Unit) R24 R53
    (exArith32 R24 R53) (exOps R53) (exDoubles32 R24 R53) (fun _ => true) 0 (fun _ => 0) (fun _ => 0)
    ⟨fun _ _ => none, 0⟩ ⟨fun _ _ => none, 0⟩ (f := toneFile32 R24) (a := toneAttrs) (T := 3) (N := 16)
    (fch1 := 8400) (foff := -1 / 1000) (tsamp := 18)
    ⟨rfl, rfl, rfl, rfl, by norm_num, by norm_num, rfl, rfl, rfl⟩ (dev := ()) rfl (by norm_num) hopen
    (ops := [.read 0]) rfl (i := 1) ⟨by norm_num, by norm_num⟩ (by norm_num) hro (by norm_num) (j := 4)
    (by decide) rfl (floor := ⟨1 / 4⟩) (p := 9) (by norm_num)
    ⟨.connectedComponents, ⟨5⟩, 1⟩ rfl (noisePower := ⟨1⟩)
    (toneFile32_tone R24 (by norm_num) (by simp [driftNoise, exArith32])) (by norm_num)
    (by simp [driftNoise, exArith32]) (le_refl (0 : ℚ)) (show (0 : ℚ) ≤ 5 by norm_num)
    (exact := 39 / 4) (by rw [hsum]; simp only [driftNoise, exArith32]; norm_num) (by norm_num)
    (exConv32_lawful R24)
    (unary_lawful num (fun n => if h : ∃ m, num m = n then some h.choose else none) (fun m => by
      have hex : ∃ m', num m' = num m := ⟨m, rfl⟩
      rw [dif_pos hex]
      exact congrArg some (hnum hex.choose_spec)) _)
  refine ⟨_, _, hs, l, h, freq, rate, r1, r2, r3, r4, r5, ?_, ?_, ?_⟩
  · refine le_trans (le_of_eq ?_) (r6.trans ?_)
    · norm_num
    · norm_num [abs_of_pos, abs_of_neg]
  · refine le_trans (le_of_eq ?_) (r7.trans ?_)
    · norm_num
    · norm_num [abs_of_pos, abs_of_neg]
  · refine le_trans (le_of_eq ?_) (r8.trans ?_)
    · norm_num
    · norm_num

end Bliss.Hit
