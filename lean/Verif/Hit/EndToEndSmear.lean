import Verif.Hit.EndToEnd
import Verif.Hit.SmearFreq

/-!
# A fast tone in the file comes out in the hits file (C106, desmeared drifts)

As `EndToEnd.lean`, for a tone that drifts several channels per time step and is spread over as many.
-/

namespace Bliss.Hit

open Bliss.Drift Bliss.Comp Bliss.Float Bliss.Nd Bliss.H5Read
open Bliss.Scan (Scan DOps Attrs openFile added)
open Bliss.File (Conv Framing Signal writeHits readHits)

/-- The file holds, within its channels from `lo` up to `hi`, a tone that starts in channel `k` and drifts by
`d` channels in a straight line. At time step `t` it has power `p t` in each of `w` channels from `ch t` on, in
the direction of the drift; everything else is at most `level`. -/
structure HasSmearedTone {F : Type} [Field F] [LinearOrder F] (f : H5Read.File F) (T : Nat) (lo hi : Int)
    (k d : Int) (w : Nat) (ch : Nat → Int) (level : F) (p : Nat → F) : Prop where
  line : ToneLine T k d ch
  spread : ChannelsPerStep T d w
  start : lo ≤ k ∧ k < hi
  stop : lo ≤ k + d ∧ k + d < hi
  band : ∀ t < T, ∀ c : Int, InWindow d w (ch t) c → lo ≤ c ∧ c < hi
  power : ∀ t < T, ∀ c : Int, InWindow d w (ch t) c → f.at t c = p t
  background : ∀ t < T, ∀ c : Int, lo ≤ c → c < hi → ¬ InWindow d w (ch t) c → f.at t c ≤ level
  strong : ∀ t < T, level < p t

/-- The searched drifts are among those for which the search is defined (C07), with desmearing, and none of them
is faster than `most` channels per time step. -/
structure SearchesFast (ro : RateOptions) (T : Nat) (fine most : Int) : Prop where
  steps : 2 ≤ T ∧ (T : Int) - 1 ≤ 2 ^ 24
  step : ro.step ≠ 0
  range : ∀ i : Nat, (i : Int) < (ro.high - ro.low).tdiv ro.step →
      |ro.low + i * ro.step| < 2 ^ 22 ∧ 2 * |ro.low + i * ro.step| ≤ fine
  desmear : ro.desmear = true
  bound : 1 ≤ most ∧ most ≤ 2 ^ 24
  fastest : ∀ i : Nat, (i : Int) < (ro.high - ro.low).tdiv ro.step →
      |ro.low + i * ro.step| ≤ most * ((T : Int) - 1)

section
variable {F Dev P : Type} [Field F] [LinearOrder F] [IsStrictOrderedRing F]

/-- **C106, desmeared drifts.** As `C106_tone_in_file_partial`, for a tone that drifts by `w` channels per time step
over which its power is spread. The drift and the SNR that are read back are the tone's; its start frequency is
that of channel `k` up to less than `w` channels, since the file holds the frequency of the middle of the cluster.

Missing: coarse channels of more than `2²⁴` fine channels, and float rounding of the sums. -/
theorem C106_smeared_tone_in_file_partial (R24 : Rounding 24) (R53 : Rounding 53) (ar : Arith F Fl)
    (o : DOps Fl) (hdbl : Doubles R53 ar o) (devOk : Dev → Bool) (fltMin : F)
    (junkHit : Coord → Int) (junk : Int → F) (heap : Heap F) (flags : Heap UInt8)
    {f : H5Read.File F} {a : Attrs Fl} {T : Nat} {N : Int} {fch1 foff tsamp : ℚ}
    (hf : Filterbank f a T N fch1 foff tsamp) {dev : Dev} (hdev : devOk dev = true) {fine : Int}
    (hfine : 0 ≤ fine) {s : Scan F Fl Dev P}
    (hopen : openFile o dev a (H5Shape.getDataShape f.toDataset) fine = .ok s)
    {ops : List (Scan.Op F Fl Dev P)} (hops : added ops = []) {i : Int} (hi : 0 ≤ i ∧ i < s.num)
    (hsize : s.fine ≤ 2 ^ 24)
    {ro : RateOptions} {most : Int} (hro : SearchesFast ro T s.fine most) {k d : Int} {j w : Nat}
    (hj : (j : Int) < (ro.high - ro.low).tdiv ro.step) (hd : d = ro.low + j * ro.step)
    {ch : Nat → Int} {noisePower floor level : F} {p : Nat → F}
    (htone : HasSmearedTone f T (s.fine * i) (s.fine * (i + 1)) k d w ch level p) (hlevel : 0 ≤ level)
    (hfloor : floor ≤ level) (hclear : ∀ t < T, most * (level - floor) < p t - level)
    (op : Options F) (hm : op.method = .connectedComponents)
    (hnoise : ∀ m : Int, 1 ≤ m → m ≤ most → 0 < driftNoise ar noisePower (T * m))
    (hfalls : NoiseFalls (fun m => driftNoise ar noisePower (T * m)) most)
    (hsteady : NoiseSteady (fun m => driftNoise ar noisePower (T * m)) most)
    (hmin : 0 ≤ fltMin) (hthr : fltMin ≤ op.thr)
    (hback : (level - floor) / driftNoise ar noisePower (T * w) ≤ op.thr / 2)
    (habove : op.thr < ((∑ t ∈ Finset.range T, p t) / (T : F) - floor) / driftNoise ar noisePower (T * w))
    {C : Conv F Fl} (hC : C.Lawful) {fr : Framing (Signal F Fl)}
    (hfr : fr.LawfulOn File.Signal.Fits) :
    ∃ (hs l : List (Hit F Fl)) (h : Hit F Fl) (freq rate : ℚ) (m : Int),
      searchChannel R24 R53 ar o devOk fltMin junkHit junk f (Scan.run o devOk s ops) i ro noisePower
        floor op heap flags = .ok hs ∧
      readHits C fr (writeHits C fr hs) = .ok l ∧ h ∈ l ∧
      h.startFreqMHz = .fin freq ∧ h.driftRate = .fin rate ∧ |m - k| < w ∧
      |freq - (fch1 + foff * m)| ≤ 2 ^ (-50 : ℤ) * (|fch1| + |foff| * m) ∧
      |rate - d * foff * 1000000 / (((T : ℚ) - 1) * tsamp)| ≤
        2 ^ (-22 : ℤ) * |d * foff * 1000000 / (((T : ℚ) - 1) * tsamp)| ∧
      h.snr = ((∑ t ∈ Finset.range T, p t) / (T : F) - floor) / driftNoise ar noisePower (T * w) ∧
      ∀ h' ∈ l, h'.snr ≤ h.snr := by
  obtain ⟨c, c1, c2, c3, c4, c5, c6, c7⟩ := open_channel o devOk hf hdev hfine hopen hops hi.1 hi.2
  have hm0 : 0 ≤ s.fine * i := Int.mul_nonneg c6 hi.1
  have hm1 : s.fine * (i + 1) = s.fine * i + s.fine := by ring
  obtain ⟨h1, dd, h2, m, inp, e1, e2, e3, e4, e5, e6, e7⟩ := window_input f T N hf.dims hf.labels
    hf.nchans (s.fine * i) s.fine hm0 c6 c7 junk heap flags
  obtain ⟨b1, b2⟩ := htone.start
  obtain ⟨b3, b4⟩ := htone.stop
  rw [hm1] at b2 b4
  have hline : ToneLine inp.timeSteps (k - s.fine * i) d (fun t => ch t - s.fine * i) := by
    rw [e5]
    refine ⟨fun t ht => ?_⟩
    have := htone.line.near t ht
    push_cast
    rwa [show (ch t : ℚ) - s.fine * i - (k - s.fine * i + d * t / ((T : ℚ) - 1)) =
      (ch t : ℚ) - (k + d * t / ((T : ℚ) - 1)) by ring]
  have hsm : SmearedTone inp.numChannels inp.timeSteps (fun t c => f.at t (s.fine * i + c)) d w
      (fun t => ch t - s.fine * i) level p := by
    have hshift : ∀ t c, InWindow d w (ch t - s.fine * i) c ↔ InWindow d w (ch t) (s.fine * i + c) := by
      intro t c
      unfold InWindow
      split_ifs <;> omega
    rw [e5]
    refine ⟨fun t ht c h0 hc h => ?_, fun t ht c h0 hc h => ?_, htone.strong⟩
    · exact htone.power t ht _ ((hshift t c).1 h)
    · rw [e6] at hc
      exact htone.background t ht _ (by omega) (by omega) fun h' => h ((hshift t c).2 h')
  have hband : ∀ t < inp.timeSteps, ∀ c : Int, InWindow d w (ch t - s.fine * i) c → 0 ≤ c ∧ c < inp.numChannels := by
    intro t ht c hc
    rw [e5] at ht
    rw [e6]
    have := htone.band t ht (s.fine * i + c) (by
      unfold InWindow at hc ⊢
      split_ifs at hc ⊢ <;> omega)
    omega
  obtain ⟨hs, h, q1, q2, q3, q4, q5, q6, q7⟩ := C155_tone_over_noise_partial R24 R53
    (driftHz o c.hdr.foff c.hdr.tsamp) ar fltMin junkHit
    ⟨c.fch1, c.hdr.foff, c.hdr.tstart, c.hdr.tsamp, c.number⟩ e7 e4 (ro := ro)
    (by rw [e5]; exact hro.steps.1) (by rw [e5]; exact hro.steps.2) hro.step hro.desmear
    (fun x hx => by rw [e6]; exact hro.range x hx) hj hd (by rw [e5]; exact htone.spread)
    ⟨by omega, by rw [e6]; omega⟩ ⟨by omega, by rw [e6]; omega⟩ hline hband noisePower floor hlevel hfloor hsm op hm
    hro.bound (by rw [e5]; exact hro.fastest) (by rw [e5]; exact hnoise) (by rw [e5]; exact hfalls)
    (by rw [e5]; exact hsteady) (by rw [e5]; exact hclear) hmin hthr (by rw [e5]; exact habove)
  obtain ⟨_, _, mid, m1, m2, m3, q10⟩ := C155_start_frequency R24 R53
    (driftHz o c.hdr.foff c.hdr.tsamp) ar fltMin junkHit
    ⟨c.fch1, c.hdr.foff, c.hdr.tstart, c.hdr.tsamp, c.number⟩ e7 e4 (ro := ro)
    (by rw [e5]; exact hro.steps.1) (by rw [e5]; exact hro.steps.2) hro.step hro.desmear
    (fun x hx => by rw [e6]; exact hro.range x hx) hj hd (by rw [e5]; exact htone.spread)
    hline noisePower floor hlevel hsm op hm
    (by
      rw [e5]
      exact hnoise w (by have := htone.spread.pos; omega)
        (widths_le hro.steps.1 htone.spread hro.fastest hj hd hro.bound.1))
    hmin hthr (by rw [e5]; exact hback) q1 h q2 q3 q4
  have hhalf : ∀ v : F, op.thr < v → op.thr / 2 < v := fun v hv =>
    lt_of_le_of_lt (half_le_self (hmin.trans hthr)) hv
  have hlow : ∀ v : F, op.thr < v → fltMin < v := fun v hv => lt_of_le_of_lt hthr hv
  have hbw := driftSearch_binwidth hm (fun _ _ _ => lt_trans) (fun _ => lt_irrefl _) hhalf hlow q1
  rw [e6] at hbw
  obtain ⟨l, r1, r2⟩ := readHits_whole hC hfr hs fun x hx => by
    have := hbw x hx
    rw [abs_of_nonneg this.1]
    omega
  obtain ⟨n, hn⟩ := Int.eq_ofNat_of_zero_le hm0
  obtain ⟨u, hu⟩ := Int.eq_ofNat_of_zero_le m1
  have hN := hf.channels.2
  -- the stored hit
  obtain ⟨x, hx, rfl⟩ := List.getElem_of_mem q2
  have hlen := r2.length_eq
  have hkept := (List.forall₂_iff_get.1 r2).2 x hx (by omega)
  simp only [List.get_eq_getElem] at hkept
  obtain ⟨k1, k2, k3, -⟩ := hkept
  have hfreq : hs[x].startFreqMHz =
      .fin (R53.r (R53.r (fch1 + R53.r (foff * n)) + R53.r (foff * u))) := by
    rw [q10]
    dsimp only
    rw [c5, c4, hf.first, hf.width, hdbl.sofInt, hdbl.smul, hdbl.sadd, hdbl.ofInt, hdbl.mul, hdbl.add,
      hu, hn, R53.int _ (by rw [Nat.abs_cast]; omega), R53.int _ (by rw [Nat.abs_cast]; omega)]
    simp
  have hrate : hs[x].driftRate = .fin (R53.r (R53.r (R53.r (R24.r ((d : ℚ) / ((T : ℚ) - 1)) * foff) *
      1000000) / tsamp)) := by
    rw [q5, e5, driftHz, c4, hf.width, hf.length, hdbl.lit, hdbl.smul, hdbl.smul,
      hdbl.sdiv _ _ hf.sampled]
  refine ⟨hs, l, l[x]'(by omega), _, _, s.fine * i + mid, ?_, r1, List.getElem_mem _, k1.trans hfreq, k2.trans hrate,
    ?_, ?_, ?_, ?_, ?_⟩
  · unfold searchChannel
    rw [c1, Outcome.bind_ok]
    unfold evalData
    rw [c2]
    simp only [e1, e2, e3, Outcome.bind_ok]
    exact q1
  · rw [abs_lt] at m3 ⊢
    omega
  · have hk : ((s.fine * i + mid : Int) : ℚ) = ((n + u : ℕ) : ℚ) := by
      have : s.fine * i + mid = ((n + u : ℕ) : Int) := by
        push_cast; omega
      rw [this]; simp
    rw [hk]
    exact frequency_error R53 fch1 foff n u
  · have e : (d : ℚ) * foff * 1000000 / (((T : ℚ) - 1) * tsamp) =
        (d : ℚ) / ((T : ℚ) - 1) * foff * 1000000 / tsamp := by
      rw [div_mul_eq_mul_div, div_mul_eq_mul_div, div_div]
    rw [e]
    exact rate_error R24 R53 _ _ _
  · rw [k3, q6, e5]
  · intro h' hh'
    obtain ⟨y, hy, rfl⟩ := List.getElem_of_mem hh'
    have hkept := (List.forall₂_iff_get.1 r2).2 y (by omega) hy
    simp only [List.get_eq_getElem] at hkept
    rw [hkept.2.2.1, k3]
    exact (q7 _ (List.getElem_mem _)).1

end

/-- Two coarse channels of 8 fine channels over 3 time steps; from channel 9 a tone of 90 drifts by 4 channels,
two per time step over which it is spread; the other samples are 0 and 1. -/
def fastFile : H5Read.File ℚ where
  dims := [3, 1, 16]
  labels := some ["time", "feed_id", "frequency"]
  nchans := some 16
  sample := fun idx => if InWindow 4 2 (9 + 2 * idx.headD 0) (idx.getD 2 0) then 90
    else ((idx.getD 2 0 + idx.headD 0) % 2 : Int)
  mask := none

theorem fastFile_filterbank : Filterbank fastFile toneAttrs 3 16 8400 (-1 / 1000) 18 :=
  ⟨rfl, rfl, rfl, rfl, by norm_num, by norm_num, rfl, rfl, rfl⟩

theorem fastFile_at (t c : Int) :
    fastFile.at t c = if InWindow 4 2 (9 + 2 * t) c then 90 else (((c + t) % 2 : Int) : ℚ) := by
  simp [File.at, named, fastFile]

theorem fastFile_tone :
    HasSmearedTone fastFile 3 (8 * 1) (8 * (1 + 1)) 9 4 2 (fun t => 9 + 2 * t) (1 : ℚ) (fun _ => 90) where
  line := ⟨fun t _ => by
    push_cast
    rw [show (9 + 2 * (t : ℚ) - (9 + 4 * t / ((3 : ℚ) - 1))) = 0 by ring]
    norm_num⟩
  spread := ⟨by norm_num, .inr (by norm_num)⟩
  start := by norm_num
  stop := by norm_num
  band := fun t ht c h => by
    unfold InWindow at h
    norm_num at h
    omega
  power := fun t _ c h => by rw [fastFile_at, if_pos h]
  background := fun t _ c _ _ h => by
    rw [fastFile_at, if_neg h]
    exact_mod_cast (show (c + t) % 2 ≤ 1 by omega)
  strong := fun t _ => by norm_num

theorem ratDoubles : Doubles (nearestEven 53 (by norm_num)) ratArith (exOps (nearestEven 53 (by norm_num))) where
  add := fun _ _ => rfl
  mul := fun _ _ => rfl
  ofInt := fun _ => rfl
  sadd := fun _ _ => rfl
  smul := fun _ _ => rfl
  sdiv := fun _ _ _ => rfl
  sofInt := fun _ => rfl
  lit := rfl

/-- The hypotheses of `C106_smeared_tone_in_file_partial` are met: the tone that starts in channel 9 of
`fastFile` is found in coarse channel 1. -/
example (R24 : Rounding 24) :
    ∃ (s : Scan ℚ Fl Unit Unit) (fr : Framing (Signal ℚ Fl)) (hs l : List (Hit ℚ Fl)) (h : Hit ℚ Fl)
      (freq rate : ℚ) (m : Int),
      searchChannel R24 (nearestEven 53 (by norm_num)) ratArith (exOps (nearestEven 53 (by norm_num)))
        (fun _ => true) 0 (fun _ => 0) (fun _ => 0)
        fastFile (Scan.run (exOps (nearestEven 53 (by norm_num))) (fun _ => true) s [.read 0]) 1 ⟨true, 0, 5, 1⟩ 1
        (1 / 2) ⟨.connectedComponents, 50, 1⟩ ⟨fun _ _ => none, 0⟩ ⟨fun _ _ => none, 0⟩ = .ok hs ∧
      readHits exConv fr (writeHits exConv fr hs) = .ok l ∧ h ∈ l ∧ h.startFreqMHz = .fin freq ∧
      h.driftRate = .fin rate ∧ |m - 9| < 2 ∧ |rate + 4000 / 36| ≤ 1 / 10000 ∧ ∀ h' ∈ l, h'.snr ≤ h.snr := by
  obtain ⟨num, hnum⟩ := signal_countable
  set R53 : Rounding 53 := nearestEven 53 (by norm_num) with hR
  have hopen : openFile (F := ℚ) (P := Unit) (exOps R53) () toneAttrs
      (H5Shape.getDataShape fastFile.toDataset) 8 = .ok
      { cache := fun _ => none, file := some (.ok [3, 1, 16]), pipeline := [], fch1 := .fin 8400
        hdr := toneAttrs.hdr, nchans := 16, fine := 8, num := 2, offset := 0, ntsteps := 3
        duration := (exOps R53).mul ((exOps R53).ofInt 3) (.fin 18), device := () } := by
    have hs := shape_usual fastFile 3 16 rfl rfl rfl
    rw [hs]
    rfl
  have hro : SearchesFast ⟨true, 0, 5, 1⟩ 3 8 2 := by
    have hr : ((5 : Int) - 0).tdiv 1 = 5 := rfl
    refine ⟨by norm_num, by norm_num, fun i hi => ?_, rfl, by norm_num, fun i hi => ?_⟩
    · have hi' : (i : Int) < 5 := by rw [← hr]; exact hi
      have h1 : |(0 : Int) + i * 1| ≤ 4 := by rw [abs_le]; omega
      refine ⟨lt_of_le_of_lt h1 (by norm_num), ?_⟩
      show 2 * |(0 : Int) + i * 1| ≤ 8
      omega
    · have hi' : (i : Int) < 5 := by rw [← hr]; exact hi
      have h1 : |(0 : Int) + i * 1| ≤ 4 := by rw [abs_le]; omega
      exact h1
  classical
  obtain ⟨hs, l, h, freq, rate, m, r1, r2, r3, r4, r5, r6, -, r7, -, r8⟩ := C106_smeared_tone_in_file_partial
    (Dev := Unit) (P := Unit) R24 R53
    ratArith (exOps R53) ratDoubles (fun _ => true) 0 (fun _ => 0) (fun _ => 0)
    ⟨fun _ _ => none, 0⟩ ⟨fun _ _ => none, 0⟩ fastFile_filterbank (dev := ()) rfl (by norm_num) hopen
    (ops := [.read 0]) rfl (i := 1) ⟨by norm_num, by norm_num⟩ (by norm_num) hro (j := 4)
    (by decide) rfl (floor := 1 / 2) fastFile_tone (by norm_num) (by norm_num) (fun _ _ => by norm_num)
    ⟨.connectedComponents, 50, 1⟩ rfl (noisePower := 1)
    (by
      intro m h1 h2
      interval_cases m <;> decide +kernel)
    (by
      intro a b h1 h2 h3
      obtain rfl : a = 1 := by omega
      obtain rfl : b = 2 := by omega
      decide +kernel)
    (by
      intro a b h1 h2 h3
      obtain rfl : a = 1 := by omega
      obtain rfl : b = 2 := by omega
      decide +kernel)
    le_rfl (by norm_num) (by decide +kernel) (by
      rw [Finset.sum_const, Finset.card_range]
      decide +kernel) exConv_lawful
    (unary_lawful num (fun n => if h : ∃ m, num m = n then some h.choose else none) (fun m => by
      have hex : ∃ m', num m' = num m := ⟨m, rfl⟩
      rw [dif_pos hex]
      exact congrArg some (hnum hex.choose_spec)) _)
  refine ⟨_, _, hs, l, h, freq, rate, m, r1, r2, r3, r4, r5, r6, ?_, r8⟩
  refine le_trans (le_of_eq ?_) (r7.trans ?_)
  · norm_num
  · norm_num [abs_of_pos, abs_of_neg]

end Bliss.Hit
