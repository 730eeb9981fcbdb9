import Verif.Hit.Window

/-!
# All steps of `bliss_find_hits` on the coarse channels of a file (C150)

A coarse channel is read from the file, its band edges and channels of unusual spectral kurtosis are
flagged, the noise is estimated from the samples without a flag, the drifts are integrated, hits searched
and filtered (`bliss/bliss_find_hits.cpp` lines 113-136).
-/

namespace Bliss.Hit

open Bliss.Drift Bliss.Comp Bliss.Float Bliss.Nd Bliss.H5Read Bliss.Stat Bliss.Flag
open Bliss.Scan (Scan DOps Attrs openFile added)

/-! ## The program -/

/-- The options of flagging, noise estimate and filter, the arithmetic of these steps, and what is in
fresh memory (`flag_filter_rolloff`, `flag_spectral_kurtosis`, `estimate_noise_power`, `filter_hits`:
flaggers/filter_rolloff.cpp lines 12-26, flaggers/spectral_kurtosis.cpp lines 27-45,
estimators/noise_estimate.cpp lines 137-179, drift_search/filter_hits.cpp lines 13-61). -/
structure Steps (F D : Type) where
  width : Int → Int
  sk : SkOps F
  low : F → Bool
  high : F → Bool
  nsk : Int
  dsk : F
  stat : StatOps F D
  tiny : Fl → Bool
  zeroDrift : Bool
  junk : Nat → Nat → Int → Val F

/-- Two arrays, of samples and of flags, in one memory. -/
def joined {F : Type} (h1 : Heap F) (b1 : Nat) (h2 : Heap UInt8) (b2 : Nat) : Heap (Val F) where
  mem b i := if b = 0 then (h1.mem b1 i).map .num else if b = 1 then (h2.mem b2 i).map .flag else none
  next := 2

section
variable {F D Dev P : Type} [Zero F] [Add F] [Sub F] [Div F] [IntCast F] [LT F] [DecidableLT F]
  [OfNat F 2]

/-- All steps on a coarse channel that was read from a file (bliss/bliss_find_hits.cpp lines 113-136).
`heap` and `flags` are the memory before the samples and the mask are read. Simplified: as in
`searchFlagged`; the arrays read are moved to a memory that holds both. -/
def chainHits (R24 : Rounding 24) (R53 : Rounding 53) (ar : Arith F Fl) (o : DOps Fl) (fltMin : F)
    (junkHit : Coord → Int) (junk : Int → F) (f : H5Read.File F) (c : Scan.Channel F Fl Dev P)
    (st : Steps F D) (ro : RateOptions) (op : Options F) (heap : Heap F) (flags : Heap UInt8) :
    Outcome (List (Hit F Fl)) := do
  let (h1, d) ← evalData f (fun _ => .ub) c junk heap
  let (h2, m) ← (match c.data with
    | .file offset count => readMask (flagsFile f) 0 offset count flags
    | .other _ => .ub)
  searchFlagged R24 R53 (driftHz o c.hdr.foff c.hdr.tsamp) ar fltMin junkHit
    ⟨c.fch1, c.hdr.foff, c.hdr.tstart, c.hdr.tsamp, c.number⟩ st.width st.sk st.low st.high st.nsk st.dsk
    st.stat ro op st.tiny st.zeroDrift { d with blk := 0 } { m with blk := 1 } st.junk
    (joined h1 d.blk h2 m.blk)

end

/-! ## Specification -/

section
variable {F D : Type}

/-- The flags of coarse channel `i` of a file, when `k` channels are flagged at the lower edge. -/
def Steps.flagsAt (st : Steps F D) (f : H5Read.File F) (T : Nat) (fine i : Int) :
    Nat → Int → UInt8 :=
  flagsOf st.sk st.low st.high st.nsk st.dsk (st.width fine) T fine.toNat
    fun t c => f.at t (fine * i + c)

/-- The samples of coarse channel `i` that have no flag. -/
def Steps.cleanAt (st : Steps F D) (f : H5Read.File F) (T : Nat) (fine i : Int) : List (List Int) :=
  clean T fine.toNat (st.flagsAt f T fine i)

/-- Noise power and noise floor of coarse channel `i`: standard deviation and mean of the samples that
have no flag, as the program computes them. -/
def Steps.noiseAt (st : Steps F D) (f : H5Read.File F) (T : Nat) (fine i : Int) : F × F :=
  (powerOf st.stat (fun t c => f.at t (fine * i + c)) (st.cleanAt f T fine i),
    floorOf st.stat (fun t c => f.at t (fine * i + c)) (st.cleanAt f T fine i))

/-- The steps can process coarse channel `i`: the options fit its size, and not all samples are
flagged. -/
structure Steps.Fits (st : Steps F D) (f : H5Read.File F) (T : Nat) (fine i : Int) : Prop where
  range : FlagRange st.width st.nsk T fine.toNat (st.width fine)
  clean : st.cleanAt f T fine i ≠ []

/-- No channel of the file that a drift line from the channels `a` to `e` can reach, in coarse channel
`i`, is at the flagged edges or has a low spectral kurtosis: these are the channels within twice the
fastest drift. -/
def Unflagged (st : Steps F D) (f : H5Read.File F) (T : Nat) (fine i : Int) (ro : RateOptions)
    (a e : Int) : Prop :=
  ∃ S : Int, (∀ j : Nat, (j : Int) < (ro.high - ro.low).tdiv ro.step → |ro.low + j * ro.step| ≤ S) ∧
    ∀ c : Int, 0 ≤ c → c < fine → a - 2 * S ≤ fine * i + c → fine * i + c < e + 2 * S →
      st.width fine ≤ c ∧ c < fine - (st.width fine + 1) ∧
      st.low (skOf st.sk st.nsk T st.dsk (onIdx fun t c => f.at t (fine * i + c)) (column T c)) = false

end

/-! ## Proofs -/

section
variable {D Dev P : Type}

theorem joined_loaded {F : Type} {h1 : Heap F} {b1 : Nat} {h2 : Heap UInt8} {b2 : Nat} {T N : Nat}
    {X : Nat → Int → F} (h : ∀ (t : Nat) (c : Int), t < T → 0 ≤ c → c < N →
      h1.mem b1 (t * N + c) = some (X t c) ∧ h2.mem b2 (t * N + c) = some 0) :
    Loaded (joined h1 b1 h2 b2) T N X 0 1 := by
  have key : ∀ b i, ValidIdx (dense b [(T : Int), (N : Int)]).shape i → ∃ (t : Nat) (c : Int),
      t < T ∧ 0 ≤ c ∧ c < N ∧ i = [(t : Int), c] ∧
        addr (dense b [(T : Int), (N : Int)]).dims i = t * N + c := by
    intro b i hi
    rw [dense_shape] at hi
    obtain ⟨t, c, rfl, t1, t2, c1, c2⟩ := valid2 hi
    obtain ⟨n, rfl⟩ := Int.eq_ofNat_of_zero_le t1
    refine ⟨n, c, by omega, c1, c2, rfl, ?_⟩
    show addr (denseDims [(T : Int), (N : Int)]).1 _ = _
    rw [dense2]
    simp [addr]
  refine ⟨by omega, by simp [joined], by simp [joined], fun i hi => ?_, fun i hi => ?_⟩
  · obtain ⟨t, c, ht, hc, hcw, rfl, e⟩ := key 0 i hi
    rw [Heap.get, e]
    simp [joined, dense, (h t c ht hc hcw).1, onIdx]
  · obtain ⟨t, c, ht, hc, hcw, rfl, e⟩ := key 1 i hi
    rw [Heap.get, e]
    simp [joined, dense, (h t c ht hc hcw).2]

variable {R24 : Rounding 24}

/-- A channel without these flags. -/
theorem flagsAt_clear {st : Steps (F32 R24) D} {f : H5Read.File (F32 R24)} {T : Nat} {fine i c : Int}
    (hf : 0 ≤ fine) (h1 : st.width fine ≤ c) (h2 : c < fine - (st.width fine + 1))
    (h3 : st.low (skOf st.sk st.nsk T st.dsk (onIdx fun t c => f.at t (fine * i + c)) (column T c)) = false)
    (t : Nat) : st.flagsAt f T fine i t c &&& 1 = 0 ∧ st.flagsAt f T fine i t c &&& 2 = 0 := by
  unfold Steps.flagsAt flagsOf
  rw [if_neg (by rw [Int.toNat_of_nonneg hf]; omega), h3, if_neg (by simp)]
  split <;> decide

theorem Says.touched {T : Nat} {fch1 foff tsamp tstart : ℚ} {m d : Int} {h : Hit (F32 R24) Fl}
    {freq rate start dur : ℚ} (hs : Says T fch1 foff tsamp tstart m d h freq rate start dur) :
    Says T fch1 foff tsamp tstart m d (touched h) freq rate start dur :=
  ⟨hs.freqEq, hs.rateEq, hs.startEq, hs.durEq, hs.freq, hs.rate, hs.start, hs.dur⟩

/-- The hits of a coarse channel of a file after all steps. -/
theorem chain_facts (R53 : Rounding 53)
    (ar : Arith (F32 R24) Fl) (o : DOps Fl) (hdbl : Doubles R53 ar o) (devOk : Dev → Bool)
    (fltMin : F32 R24) (junkHit : Coord → Int) (junk : Int → F32 R24) (heap : Heap (F32 R24))
    (flags : Heap UInt8) {f : H5Read.File (F32 R24)} {a : Attrs Fl} {T : Nat} {N : Int}
    {fch1 foff tsamp : ℚ} (hf : Filterbank f a T N fch1 foff tsamp) {tstart : ℚ}
    (hts : a.hdr.tstart = .fin tstart) {dev : Dev}
    (hdev : devOk dev = true) {fine : Int} (hfine : 0 ≤ fine) {s : Scan (F32 R24) Fl Dev P}
    (hopen : openFile o dev a (H5Shape.getDataShape f.toDataset) fine = .ok s)
    {ops : List (Scan.Op (F32 R24) Fl Dev P)} (hops : added ops = []) {i : Int}
    (hi : 0 ≤ i ∧ i < s.num) {ro : RateOptions} (hro : Searches ro T s.fine)
    (hne : 0 < (ro.high - ro.low).tdiv ro.step) (hT : T ≤ 512) (st : Steps (F32 R24) D)
    (hst : st.Fits f T s.fine i)
    (op : Options (F32 R24)) (hm : op.method = .connectedComponents) (hmin : 0 ≤ fltMin.val)
    (hthr : fltMin.val ≤ op.thr.val) :
    ∃ hs, ((Scan.read o devOk (Scan.run o devOk s ops) i).2.bind fun c => chainHits R24 R53 ar o fltMin
        junkHit junk f c st ro op heap flags) = .ok hs ∧
      (∀ h ∈ hs, ∃ (m d : Int) (freq rate start dur : ℚ), s.fine * i ≤ m ∧ m < s.fine * (i + 1) ∧
        (∃ j : Nat, (j : Int) < (ro.high - ro.low).tdiv ro.step ∧ d = ro.low + j * ro.step) ∧
        (∃ v, h.power = ar.toD v) ∧ Says T fch1 foff tsamp tstart m d h freq rate start dur ∧
        ∀ lo hi : Int, lo ≤ hi → op.dist ≤ hi - lo →
          QuietBand ar (fun t c => f.at t (s.fine * i + c)) s.fine.toNat T ro
            (st.noiseAt f T s.fine i).1 (st.noiseAt f T s.fine i).2 op
            (lo - s.fine * i) (hi - s.fine * i) →
          (m < lo ∧ s.fine * i + h.startFreqIndex < lo) ∨
            (hi ≤ m ∧ hi ≤ s.fine * i + h.startFreqIndex)) ∧
      (NoLine ar (fun t c => f.at t (s.fine * i + c)) s.fine.toNat T ro (st.noiseAt f T s.fine i).1
          (st.noiseAt f T s.fine i).2 op → hs = []) ∧
      ∀ k d lo hi', LoneTone ar f T s.fine i ro (st.noiseAt f T s.fine i).1
          (st.noiseAt f T s.fine i).2 op k d lo hi' → Unflagged st f T s.fine i ro lo hi' →
        (st.zeroDrift = true → ∀ q : ℚ,
          |q - d * foff * 1000000 / (((T : ℚ) - 1) * tsamp)| ≤
            2 ^ (-22 : ℤ) * |d * foff * 1000000 / (((T : ℚ) - 1) * tsamp)| →
          st.tiny (.fin q) = false) →
        ∃ h freq rate start dur, hs.filter (fun h => decide (lo ≤ s.fine * i + h.startFreqIndex ∧
            s.fine * i + h.startFreqIndex < hi')) = [h] ∧
          Says T fch1 foff tsamp tstart k d h freq rate start dur := by
  obtain ⟨c, c1, c2, c3, c4, c5, c6, c7⟩ := open_channel o devOk hf hdev hfine hopen hops hi.1 hi.2
  have hm0 : 0 ≤ s.fine * i := Int.mul_nonneg c6 hi.1
  have hw : ((s.fine.toNat : Nat) : Int) = s.fine := Int.toNat_of_nonneg c6
  obtain ⟨h1, h2, e1, e2, e3⟩ := window_arrays f T N hf.dims hf.labels hf.nchans (s.fine * i) s.fine hm0 c6
    c7 junk heap flags
  have hload : Loaded (joined h1 heap.next h2 flags.next) T s.fine.toNat
      (fun t c => f.at t (s.fine * i + c)) 0 1 :=
    joined_loaded fun t c ht h0 hc => by
      rw [hw] at hc ⊢
      exact e3 t c ht h0 hc
  have hin := denseInput_holds T s.fine.toNat (fun t c => f.at t (s.fine * i + c))
    (st.flagsAt f T s.fine i)
  have hcc : (⟨c.fch1, c.hdr.foff, c.hdr.tstart, c.hdr.tsamp, c.number⟩ : Channel Fl).foff = a.hdr.foff ∧
      (⟨c.fch1, c.hdr.foff, c.hdr.tstart, c.hdr.tsamp, c.number⟩ : Channel Fl).tstart = a.hdr.tstart ∧
      (⟨c.fch1, c.hdr.foff, c.hdr.tstart, c.hdr.tsamp, c.number⟩ : Channel Fl).tsamp = a.hdr.tsamp := by
    rw [c4]; exact ⟨rfl, rfl, rfl⟩
  obtain ⟨qs, q1, q2, q3, q4⟩ := search_facts R24 R53 ar o hdbl fltMin junkHit hf hts c6 hi.1 c7 hin
    ⟨rfl, rfl⟩ rfl hw (cc := ⟨c.fch1, c.hdr.foff, c.hdr.tstart, c.hdr.tsamp, c.number⟩) hcc c5 hro
    hne hT (st.noiseAt f T s.fine i).1 (st.noiseAt f T s.fine i).2 op hm hmin hthr
  have hrun := (C117_search R24 R53 (driftHz o a.hdr.foff a.hdr.tsamp) ar fltMin junkHit
    ⟨c.fch1, c.hdr.foff, c.hdr.tstart, c.hdr.tsamp, c.number⟩ st.width st.sk st.low st.high st.nsk st.dsk
    st.stat ro op st.tiny st.zeroDrift st.junk _ T s.fine.toNat _ (st.width s.fine) 0 1 hst.range hload).2
    qs hst.clean q1
  rw [filterHits_eq _ _ _ (driftSearch_sorted q1)] at hrun
  refine ⟨(qs.filter fun h => decide (Acceptable st.tiny st.zeroDrift h)).map touched, ?_, fun h' hh' => ?_,
    fun hno => ?_, fun k d lo hi' htone hclear htiny => ?_⟩
  · rw [c1]
    show chainHits R24 R53 ar o fltMin junkHit junk f c st ro op heap flags = _
    unfold chainHits evalData
    rw [c2]
    simp only [e1, e2, Outcome.bind_ok]
    rw [show (⟨0, [⟨(T : Int), s.fine, 0⟩, ⟨s.fine, 1, 0⟩]⟩ : Arr) = dense 0 [(T : Int), (s.fine.toNat : Int)] by
        rw [dense, dense2, hw],
      show (⟨1, [⟨(T : Int), s.fine, 0⟩, ⟨s.fine, 1, 0⟩]⟩ : Arr) = dense 1 [(T : Int), (s.fine.toNat : Int)] by
        rw [dense, dense2, hw]]
    rw [c4] at hrun ⊢
    exact hrun
  · obtain ⟨h, hh, rfl⟩ := List.mem_map.1 hh'
    obtain ⟨m, d, freq, rate, start, dur, w1, w2, w3, w4, w5, n, y, off, -, -, -, -, w6⟩ :=
      q2 h (List.mem_filter.1 hh).1
    refine ⟨m, d, freq, rate, start, dur, w1, w2, w3, w4, w5.touched, fun lo hi hle hdist hq => ?_⟩
    have := w6 lo hi hle hdist hq
    show (m < lo ∧ s.fine * i + h.startFreqIndex < lo) ∨ (hi ≤ m ∧ hi ≤ s.fine * i + h.startFreqIndex)
    omega
  · rw [q3 hno]; rfl
  · obtain ⟨h, freq, rate, start, dur, u1, u2⟩ := search_window R24 R53 ar o hdbl fltMin junkHit hf hts c6 hi.1 c7
      hin ⟨rfl, rfl⟩ rfl hw hcc c5 hro hne hT _ _ op hm hmin hthr q1 htone
    refine ⟨touched h, freq, rate, start, dur, ?_, u2.touched⟩
    have hmem := List.mem_filter.1 (show h ∈ qs.filter (fun h => decide (lo ≤ s.fine * i + h.startFreqIndex ∧
        s.fine * i + h.startFreqIndex < hi')) by rw [u1]; exact List.mem_cons_self)
    have hwin := of_decide_eq_true hmem.2
    obtain ⟨m, d', freq', rate', start', dur', w1, w2, w3, w4, w5, n, y, off, y1, ⟨y2, y3⟩, y4, ⟨y5, y6⟩, w6⟩ :=
      q2 h hmem.1
    obtain ⟨others, S', -, -, t3, -, -, t6, t7⟩ := htone
    have s1 := w6 (lo - op.dist) lo (by omega) (by omega) t6
    have s2 := w6 hi' (hi' + op.dist) (by omega) (by omega) t7
    obtain ⟨S, v1, v2⟩ := hclear
    have hzero : ∀ v : UInt8, (v = 1 ∨ v = 2) → pathFlags (st.flagsAt f T s.fine i) v
        (path s.fine.toNat T (decide (0 ≤ ro.low + n * ro.step)) (ro.low + n * ro.step) 1 off y) = 0 := by
      intro v hv
      unfold pathFlags
      rw [List.countP_eq_zero]
      intro x hx
      obtain ⟨x1, x2, x3, x4⟩ := mem_path_near (w := 1) y4 (le_max_left _ _) y2 (by omega) hx
      have := v1 n y1
      rw [abs_le] at x2
      obtain ⟨z1, z2, z3⟩ := v2 x.2 x3 (by omega) (by omega) (by omega)
      have := flagsAt_clear (st := st) (f := f) (T := T) (i := i) c6 z1 z2 z3 x.1
      rcases hv with rfl | rfl
      · simpa using this.1
      · simpa using this.2
    have hacc : Acceptable st.tiny st.zeroDrift h := by
      refine ⟨?_, ?_, ?_⟩
      · exact (congrArg (fun x => Option.getD x 0) y6).trans (congrArg (· % 256) (hzero 1 (Or.inl rfl)))
      · exact (congrArg (fun x => Option.getD x 0) y5).trans (congrArg (· % 256) (hzero 2 (Or.inr rfl)))
      · rintro ⟨x1, x2⟩
        rw [u2.rateEq, htiny x1 rate u2.rate] at x2
        cases x2
    rw [List.filter_map]
    have e : ((fun h : Hit (F32 R24) Fl => decide (lo ≤ s.fine * i + h.startFreqIndex ∧
        s.fine * i + h.startFreqIndex < hi')) ∘ touched) = fun h => decide (lo ≤ s.fine * i + h.startFreqIndex ∧
        s.fine * i + h.startFreqIndex < hi') := rfl
    rw [e, List.filter_filter, List.filter_congr (q := fun h => decide (Acceptable st.tiny st.zeroDrift h) &&
      decide (lo ≤ s.fine * i + h.startFreqIndex ∧ s.fine * i + h.startFreqIndex < hi'))
      fun b _ => Bool.and_comm _ _, ← List.filter_filter, u1,
      List.filter_cons_of_pos (by simpa using hacc), List.filter_nil]
    rfl

end

end Bliss.Hit
