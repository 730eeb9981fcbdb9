import Verif.Hit.SurviveFloat

/-!
# A tone in a coarse channel that holds other signals (C144, C148)

The hits in a range of channels are those of the tone there, whatever the rest of the coarse channel
holds.
-/

namespace Bliss.Hit

open Bliss.Drift Bliss.Comp Bliss.Float Bliss.Nd Bliss.H5Read
open Bliss.Scan (Scan DOps Attrs openFile added)

/-! ## Specification -/

/-- Coarse channel `i` of the file holds, in the channels of the file from `a` to `e`, one signal above
the threshold: the tone of C106 from channel `k`, drifting by `d`. Were the samples far from these
channels others, it would be the only signal in the coarse channel; far is the distance of the search and
twice the fastest drift `S`. As many channels as that distance, below `a` and from `e` on, have no line
above half the threshold. Further away there may be anything. -/
def LoneTone {R : Rounding 24} (ar : Arith (F32 R) Fl) (f : H5Read.File (F32 R)) (T : Nat)
    (fine i : Int) (ro : RateOptions) (noisePower floor : F32 R) (op : Options (F32 R)) (k d a e : Int) :
    Prop :=
  ∃ (others : List Int → F32 R) (S : Int),
    OneTone ar { f with sample := others } T fine i ro noisePower floor op k d ∧ (a ≤ k ∧ k < e) ∧
    0 ≤ op.dist ∧
    (∀ j : Nat, (j : Int) < (ro.high - ro.low).tdiv ro.step → |ro.low + j * ro.step| ≤ S) ∧
    (∀ t : Nat, t < T → ∀ c : Int, a - (2 * S + op.dist) ≤ c → c < e + (2 * S + op.dist) →
      f.at t c = H5Read.File.at { f with sample := others } t c) ∧
    QuietBand ar (fun t c => f.at t (fine * i + c)) fine.toNat T ro noisePower floor op
      (a - op.dist - fine * i) (a - fine * i) ∧
    QuietBand ar (fun t c => f.at t (fine * i + c)) fine.toNat T ro noisePower floor op
      (e - fine * i) (e + op.dist - fine * i)

/-! ## Proofs -/

section
variable {F : Type} [Zero F] [Add F] [Sub F] [Div F] [IntCast F] [LT F] [DecidableLT F] [OfNat F 2]

omit [Sub F] [LT F] [DecidableLT F] [OfNat F 2] in
/-- A line through equal samples has the same sum. -/
theorem pathSum_congr {X Y : Nat → Int → F} {w : Int} {p : List (Nat × Int)}
    (h : ∀ s ∈ p, X s.1 s.2 = Y s.1 s.2) : pathSum X w p = pathSum Y w p := by
  unfold pathSum
  exact List.foldl_ext _ _ _ fun acc s hs => by rw [h s hs]

omit [DecidableLT F] in
/-- Without desmearing, quiet in one sense is quiet in the other. -/
theorem QuietBand.lines (R24 : Rounding 24) (R53 : Rounding 53) {ar : Arith F Fl}
    {noisePower floor : F} {o : Options F} {T N : Nat} {ro : RateOptions} (hd : Defined ro T N)
    (hplain : ro.desmear = false ∨ ∀ i : Nat, (i : Int) < (ro.high - ro.low).tdiv ro.step →
      |ro.low + i * ro.step| ≤ (T : Int) - 1) {X : Nat → Int → F} {lo hi : Int}
    (h : QuietBand ar X N T ro noisePower floor o lo hi) :
    QuietLines ar noisePower floor o.thr T N ro X lo hi := by
  intro i hi' c c1 c2 c3 c4 w off w1 w2 w3 hstr
  obtain rfl : w = 1 := w3 (by
    rcases hplain with h | h
    · exact Or.inl h
    · exact Or.inr (h i hi'))
  have hex : ∀ n : Nat, ∃ f : Nat → Int, (n : Int) < (ro.high - ro.low).tdiv ro.step →
      StraightPath (ro.low + n * ro.step) T (2 ^ (-23 : ℤ) + 2 ^ (-51 : ℤ)) f := by
    intro n
    by_cases hn : (n : Int) < (ro.high - ro.low).tdiv ro.step
    · obtain ⟨f, -, hf⟩ := C06_path_geometry_partial R24 R53 (hd.range n hn).1 hd.steps.1 hd.steps.2
      exact ⟨f, fun _ => hf⟩
    · exact ⟨fun _ => 0, fun h => absurd h hn⟩
  choose f hf using hex
  have hoff : Straight T ro (Function.update f i off) := by
    intro n hn
    by_cases e : n = i
    · subst e; rw [Function.update_self]; exact hstr
    · rw [Function.update_of_ne e]; exact hf n hn
  rw [mul_one]
  have := h _ hoff ((i : Int), c) ⟨by simp, hi', c1, c2⟩ c3 c4
  unfold lineSnr at this
  dsimp only at this
  rw [Int.toNat_natCast, Function.update_self] at this
  exact this

omit [DecidableLT F] in
/-- Lines through equal samples are equally quiet. -/
theorem QuietLines.congr {ar : Arith F Fl} {noisePower floor thr : F} {T N : Nat} {ro : RateOptions}
    {X Y : Nat → Int → F} {lo hi S : Int}
    (hS : ∀ i : Nat, (i : Int) < (ro.high - ro.low).tdiv ro.step → |ro.low + i * ro.step| ≤ S)
    (hXY : ∀ t < T, ∀ c : Int, lo - 2 * S ≤ c → c < hi + 2 * S → X t c = Y t c)
    (h : QuietLines ar noisePower floor thr T N ro X lo hi) :
    QuietLines ar noisePower floor thr T N ro Y lo hi := by
  intro i hi' c c1 c2 c3 c4 w off w1 w2 w3 hstr
  rw [← pathSum_congr (X := X) (Y := Y) fun s hs => ?_]
  · exact h i hi' c c1 c2 c3 c4 w off w1 w2 w3 hstr
  · obtain ⟨s1, s2, -, -⟩ := mem_path_near hstr w2 c1 c2 hs
    have := hS i hi'
    rw [abs_le] at s2
    exact hXY s.1 s1 s.2 (by omega) (by omega)

end

/-- Lines through samples below a level are quiet. -/
theorem QuietBand.of_level {R24 : Rounding 24} {ar : Arith (F32 R24) Fl} {noisePower floor : F32 R24}
    {o : Options (F32 R24)} {b : ℚ} {T N : Nat} {ro : RateOptions} (hT : 2 ≤ T) (hT' : T ≤ 512)
    {X : Nat → Int → F32 R24} {lo hi S : Int}
    (hS : ∀ i : Nat, (i : Int) < (ro.high - ro.low).tdiv ro.step → |ro.low + i * ro.step| ≤ S)
    (hb : 0 ≤ b) (hpos : ∀ t < T, ∀ c : Int, 0 ≤ c → c < N → 0 ≤ (X t c).val)
    (hX : ∀ t < T, ∀ c : Int, 0 ≤ c → c < N → lo - 2 * S ≤ c → c < hi + 2 * S → (X t c).val ≤ b)
    (hthr : 0 ≤ o.thr.val) (hn : 0 < (driftNoise ar noisePower T).val)
    (hlevel : b * (1 + 1 / 4096) ≤
      fullLevel floor.val (o.thr / 2).val (driftNoise ar noisePower T).val) :
    QuietBand ar X N T ro noisePower floor o lo hi := by
  rintro off hoff ⟨xi, c⟩ hcell c3 c4
  have hcell' := hcell
  obtain ⟨x1, hi', c1, c2⟩ := hcell'
  dsimp only at x1 hi' c1 c2 c3 c4
  obtain ⟨i, rfl⟩ := Int.eq_ofNat_of_zero_le x1
  have hstr := hoff i hi'
  rw [F32.lt_val]
  refine not_lt.mpr (low_line ar hoff hT hT' hpos hn hcell (thr := (o.thr / 2).val) (floor := floor) (by
      rw [F32.div_val]
      exact R24.nonneg (div_nonneg hthr (by change (0 : ℚ) ≤ 2; norm_num))) (by
    refine mean_le (by omega) (b := b) (fun t ht => ?_) hlevel
    unfold contribution
    dsimp only
    rw [Int.toNat_natCast]
    split
    · rename_i z hz
      obtain ⟨y1, y2, y3⟩ := pathChannel_inside hstr ht c1 c2 hz
      have a1 := hstr.inside t ht
      have a3 := hS i hi'
      rw [abs_le] at a3
      refine hX t ht z y2 y3 ?_ ?_
      · rcases le_total 0 (ro.low + i * ro.step) with h0 | h0
        · rw [max_eq_right h0, min_eq_left h0] at a1; omega
        · rw [max_eq_left h0, min_eq_right h0] at a1; omega
      · rcases le_total 0 (ro.low + i * ro.step) with h0 | h0
        · rw [max_eq_right h0, min_eq_left h0] at a1; omega
        · rw [max_eq_left h0, min_eq_right h0] at a1; omega
    · exact hb))

section
variable {Dev P : Type}

/-- The hits in the channels of a lone tone, when the samples, with any flags, are in memory. -/
theorem search_window (R24 : Rounding 24) (R53 : Rounding 53)
    (ar : Arith (F32 R24) Fl) (o : DOps Fl) (hdbl : Doubles R53 ar o)
    (fltMin : F32 R24) (junkHit : Coord → Int) {f : H5Read.File (F32 R24)} {a : Attrs Fl} {T : Nat}
    {N : Int} {fch1 foff tsamp : ℚ} (hf : Filterbank f a T N fch1 foff tsamp) {tstart : ℚ}
    (hts : a.hdr.tstart = .fin tstart) {fine i : Int} (c6 : 0 ≤ fine) (hi : 0 ≤ i)
    (c7 : fine * i + fine ≤ N) {inp : Input (F32 R24)} {mask : Nat → Int → UInt8}
    (e7 : Holds inp (fun t c => f.at t (fine * i + c)) mask)
    (e4 : inp.specOffset = 0 ∧ inp.rfiOffset = 0) (e5 : inp.timeSteps = T)
    (e6 : (inp.numChannels : Int) = fine) {cc : Channel Fl}
    (hcc : cc.foff = a.hdr.foff ∧ cc.tstart = a.hdr.tstart ∧ cc.tsamp = a.hdr.tsamp)
    (c5 : cc.fch1 = o.add a.fch1 (o.mul a.hdr.foff (o.ofInt (fine * i))))
    {ro : RateOptions} (hro : Searches ro T fine)
    (hne : 0 < (ro.high - ro.low).tdiv ro.step) (hT : T ≤ 512) (noisePower floor : F32 R24)
    (op : Options (F32 R24)) (hm : op.method = .connectedComponents) (hmin : 0 ≤ fltMin.val)
    (hthr : fltMin.val ≤ op.thr.val) {hs : List (Hit (F32 R24) Fl)}
    (hrun : driftSearch R24 R53 (driftHz o a.hdr.foff a.hdr.tsamp) ar fltMin junkHit cc inp ro
        noisePower floor op = .ok hs) {k d lo hi' : Int}
    (htone : LoneTone ar f T fine i ro noisePower floor op k d lo hi') :
    ∃ h freq rate start dur, hs.filter (fun h => decide (lo ≤ fine * i + h.startFreqIndex ∧
        fine * i + h.startFreqIndex < hi')) = [h] ∧
      Says T fch1 foff tsamp tstart k d h freq rate start dur := by
  obtain ⟨others, S, t1, t2, t3, t4, t5, t6, t7⟩ := htone
  have hf' : Filterbank { f with sample := others } a T N fch1 foff tsamp :=
    ⟨hf.dims, hf.labels, hf.nchans, hf.attr, hf.channels, hf.sampled, hf.first, hf.width, hf.length⟩
  have hw : ((fine.toNat : Nat) : Int) = fine := Int.toNat_of_nonneg c6
  have b1 := denseInput_holds T fine.toNat
    (fun t c => H5Read.File.at { f with sample := others } t (fine * i + c)) mask
  obtain ⟨hs', g1, -, -, g4⟩ := search_facts R24 R53 ar o hdbl fltMin junkHit hf' hts c6 hi c7 b1
    ⟨rfl, rfl⟩ rfl hw hcc c5 hro hne hT noisePower floor op hm hmin hthr
  obtain ⟨h, freq, rate, start, dur, rfl, hsay, hidx⟩ := g4 k d t1
  have hfine0 := c6
  have hd : Defined ro T fine.toNat := ⟨hro.steps, hro.step, hne, fun j hj => by
    have := hro.range j hj
    rw [Int.toNat_of_nonneg hfine0]
    exact this⟩
  have hX : ∀ t < T, ∀ c : Int, lo - fine * i - op.dist - 2 * S ≤ c →
      c < hi' - fine * i + op.dist + 2 * S → f.at t (fine * i + c) =
        H5Read.File.at { f with sample := others } t (fine * i + c) :=
    fun t ht c h1 h2 => t5 t ht _ (by omega) (by omega)
  have hS0 : 0 ≤ S := (abs_nonneg _).trans (t4 0 (by simpa using hne))
  have hq1 := QuietBand.lines R24 R53 hd hro.plain t6
  have hq2 := QuietBand.lines R24 R53 hd hro.plain t7
  rw [show lo - op.dist - fine * i = lo - fine * i - op.dist by ring] at hq1
  rw [show hi' + op.dist - fine * i = hi' - fine * i + op.dist by ring] at hq2
  obtain ⟨hits, hits', u1, u2, u3⟩ := C148_hits_local R24 R53
    (driftHz o a.hdr.foff a.hdr.tsamp) ar fltMin junkHit cc e7 b1 e4 ⟨rfl, rfl⟩ ⟨e5, show inp.numChannels = fine.toNat by omega⟩
    ⟨rfl, rfl⟩ hd
    noisePower floor op hm (F32.sane hmin hthr) t4 (a := lo - fine * i) (b := hi' - fine * i)
    (fun t ht c h1 h2 => ⟨hX t ht c (by omega) (by omega), rfl⟩) (by
      rintro Z (rfl | rfl)
      · exact ⟨hq1, hq2⟩
      · exact ⟨hq1.congr t4 fun t ht c h1 h2 => hX t ht c (by omega) (by omega),
          hq2.congr t4 fun t ht c h1 h2 => hX t ht c (by omega) (by omega)⟩)
  rw [hrun] at u1
  rw [g1] at u2
  obtain rfl := Outcome.ok.inj u1
  obtain rfl := Outcome.ok.inj u2
  refine ⟨h, freq, rate, start, dur, ?_, hsay⟩
  have e : (fun h : Hit (F32 R24) Fl => decide (lo ≤ fine * i + h.startFreqIndex ∧
      fine * i + h.startFreqIndex < hi')) = fun h => decide (lo - fine * i ≤ h.startFreqIndex ∧
      h.startFreqIndex < hi' - fine * i) := by
    funext h
    rw [decide_eq_decide]
    omega
  rw [e, u3, List.filter_cons_of_pos (by rw [hidx]; simp; omega), List.filter_nil]

/-- The hits in the channels of a lone tone. -/
theorem channel_window (R24 : Rounding 24) (R53 : Rounding 53)
    (ar : Arith (F32 R24) Fl) (o : DOps Fl) (hdbl : Doubles R53 ar o) (devOk : Dev → Bool)
    (fltMin : F32 R24) (junkHit : Coord → Int) (junk : Int → F32 R24) (heap : Heap (F32 R24))
    (flags : Heap UInt8) {f : H5Read.File (F32 R24)} {a : Attrs Fl} {T : Nat} {N : Int}
    {fch1 foff tsamp : ℚ} (hf : Filterbank f a T N fch1 foff tsamp) {tstart : ℚ}
    (hts : a.hdr.tstart = .fin tstart) {dev : Dev}
    (hdev : devOk dev = true) {fine : Int} (hfine : 0 ≤ fine) {s : Scan (F32 R24) Fl Dev P}
    (hopen : openFile o dev a (H5Shape.getDataShape f.toDataset) fine = .ok s)
    {ops : List (Scan.Op (F32 R24) Fl Dev P)} (hops : added ops = []) {i : Int}
    (hi : 0 ≤ i ∧ i < s.num) {ro : RateOptions} (hro : Searches ro T s.fine)
    (hne : 0 < (ro.high - ro.low).tdiv ro.step) (hT : T ≤ 512) (noisePower floor : F32 R24)
    (op : Options (F32 R24)) (hm : op.method = .connectedComponents) (hmin : 0 ≤ fltMin.val)
    (hthr : fltMin.val ≤ op.thr.val) {hs : List (Hit (F32 R24) Fl)}
    (hrun : searchChannel R24 R53 ar o devOk fltMin junkHit junk f (Scan.run o devOk s ops) i ro
        noisePower floor op heap flags = .ok hs) {k d lo hi' : Int}
    (htone : LoneTone ar f T s.fine i ro noisePower floor op k d lo hi') :
    ∃ h freq rate start dur, hs.filter (fun h => decide (lo ≤ s.fine * i + h.startFreqIndex ∧
        s.fine * i + h.startFreqIndex < hi')) = [h] ∧
      Says T fch1 foff tsamp tstart k d h freq rate start dur := by
  obtain ⟨c, c1, c2, c3, c4, c5, c6, c7⟩ := open_channel o devOk hf hdev hfine hopen hops hi.1 hi.2
  have hm0 : 0 ≤ s.fine * i := Int.mul_nonneg c6 hi.1
  obtain ⟨h1, dd, h2, m, inp, e1, e2, e3, e4, e5, e6, e7⟩ := window_input f T N hf.dims hf.labels
    hf.nchans (s.fine * i) s.fine hm0 c6 c7 junk heap flags
  refine search_window R24 R53 ar o hdbl fltMin junkHit hf hts c6 hi.1 c7 e7 e4 e5 e6
    (cc := ⟨c.fch1, c.hdr.foff, c.hdr.tstart, c.hdr.tsamp, c.number⟩) (by rw [c4]; exact ⟨rfl, rfl, rfl⟩) c5 hro
    hne hT noisePower floor op hm hmin hthr ?_ htone
  unfold searchChannel at hrun
  rw [c1, Outcome.bind_ok] at hrun
  unfold evalData at hrun
  rw [c2] at hrun
  simp only [e1, e2, e3, Outcome.bind_ok] at hrun
  rw [c4] at hrun ⊢
  exact hrun

end

end Bliss.Hit
