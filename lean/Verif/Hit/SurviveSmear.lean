import Verif.Hit.Survive
import Verif.Hit.Smear

/-!
# A tone that drifts several channels per time step is reported by the whole chain (C147)

As `Survive.lean`, with desmearing and a tone that is spread over as many channels as it drifts by in one time
step.
-/

namespace Bliss.Hit

open Bliss.Drift Bliss.Comp Bliss.Float Bliss.Nd Bliss.Stat Bliss.Flag

variable {F D : Type} [Field F] [LinearOrder F] [IsStrictOrderedRing F]

/-- The flags of a hit of a search, and the line they are those of. -/
theorem hit_flags (R24 : Rounding 24) (R53 : Rounding 53) (hz : Fl → Fl)
    (ar : Arith F Fl) (fltMin : F) (junk : Coord → Int) (cc : Channel Fl) {inp : Input F}
    {grid : Nat → Int → F} {mask : Nat → Int → UInt8} (hin : Holds inp grid mask)
    (hview : inp.specOffset = 0 ∧ inp.rfiOffset = 0) {ro : RateOptions} (hT : 2 ≤ inp.timeSteps)
    (hT' : (inp.timeSteps : Int) - 1 ≤ 2 ^ 24) (hstep : ro.step ≠ 0)
    (hne : 0 < (ro.high - ro.low).tdiv ro.step)
    (hrange : ∀ i : Nat, (i : Int) < (ro.high - ro.low).tdiv ro.step →
      |ro.low + i * ro.step| < 2 ^ 22 ∧ 2 * |ro.low + i * ro.step| ≤ inp.numChannels)
    {most : Int} (hmost : 1 ≤ most ∧ most ≤ 2 ^ 24)
    (hsteps : ∀ i : Nat, (i : Int) < (ro.high - ro.low).tdiv ro.step →
      |ro.low + i * ro.step| ≤ most * ((inp.timeSteps : Int) - 1))
    (noisePower floor : F) (o : Options F) (hm : o.method = .connectedComponents)
    (hhalf : ∀ v : F, o.thr < v → o.thr / 2 < v) (hmin : ∀ v : F, o.thr < v → fltMin < v)
    {hs : List (Hit F Fl)}
    (hrun : driftSearch R24 R53 hz ar fltMin junk cc inp ro noisePower floor o = .ok hs) :
    ∀ h ∈ hs, ∃ (i : Nat) (c : Int) (off : Nat → Int) (w : Nat), (i : Int) < (ro.high - ro.low).tdiv ro.step ∧
      0 ≤ c ∧ c < inp.numChannels ∧ 1 ≤ w ∧ (w : Int) ≤ most ∧
      StraightPath (ro.low + i * ro.step) inp.timeSteps (2 ^ (-23 : ℤ) + 2 ^ (-51 : ℤ)) off ∧
      let line := path inp.numChannels inp.timeSteps (decide (0 ≤ ro.low + i * ro.step))
          (ro.low + i * ro.step) w off c
      o.thr < (pathSum grid w line / (inp.timeSteps : F) - floor) / driftNoise ar noisePower (inp.timeSteps * w) ∧
      h.rfi.lookup 2 = some (pathFlags mask 2 line % 256) ∧
      h.rfi.lookup 1 = some (pathFlags mask 1 line % 256) := by
  obtain ⟨a, rates, off, h1, h2, h3⟩ :=
    C07_defined_partial R24 R53 hz hin hview hT hT' hstep hne hrange
  have hcd := computeDrifts_of h1
  obtain ⟨cs, hs', e1, e2, e3, _⟩ := hitSearch_covers ar fltMin junk cc (planeOf inp a rates)
    noisePower floor o hm (fun _ _ _ => lt_trans) (fun _ => lt_irrefl _) (by simp [planeOf]) hhalf hmin
  have hrun' : driftSearch R24 R53 hz ar fltMin junk cc inp ro noisePower floor o = .ok hs' := by
    simp only [driftSearch, h1, Outcome.bind_ok]; exact e2
  rw [hrun] at hrun'
  obtain rfl := Outcome.ok.inj hrun'
  intro h hh
  obtain ⟨j, hj, rfl⟩ := List.getElem_of_mem hh
  have hlen := e3.length_eq
  have hjc : j < cs.length := by omega
  have hd : Describes ar cc (planeOf inp a rates) noisePower floor o.thr cs[j] hs[j] :=
    (List.forall₂_iff_get.1 e3).2 j hjc hj
  obtain ⟨x, rest, x1, x2, x3, _⟩ := Comp.C16_counts_at_first_cell_partial _ fltMin hhalf hmin e1
    (List.getElem_mem hjc)
  obtain ⟨cs', f1, _, f3, _⟩ :=
    Comp.C12_clusters_disjoint_complete_partial
      (toSearch ar (planeOf inp a rates) noisePower floor o) fltMin
  rw [e1] at f1
  obtain rfl := Outcome.ok.inj f1
  obtain ⟨hx, _⟩ := f3 _ (List.getElem_mem hjc) x (by rw [x1]; exact List.mem_cons_self)
  obtain ⟨xi, c⟩ := x
  obtain ⟨y1, y2, y3, y4⟩ := hx
  simp only [toSearch, planeOf] at y1 y2 y3 y4
  obtain ⟨i, rfl⟩ : ∃ i : Nat, xi = i := ⟨xi.toNat, (Int.toNat_of_nonneg y1).symm⟩
  have hil : i < rates.length := by exact_mod_cast y2
  have hget := List.getElem?_eq_getElem hil
  obtain ⟨_, g2, g3, g4, g5⟩ := h3 i _ hget
  obtain ⟨p1, l, hi, ro', q1, q2, q3, q4, q5, q6⟩ := g5 c y3 y4
  have hil' : (i : Int) < (ro.high - ro.low).tdiv ro.step := by omega
  have hrg := hrange i hil'
  obtain ⟨b1, b2⟩ := rate_bins_le hcd hT hT' hget (by omega) hmost.1 hmost.2 (hsteps i hil')
  obtain ⟨w, hw⟩ := Int.eq_ofNat_of_zero_le (show 0 ≤ rates[i].desmear by omega)
  rw [g2] at g4
  have hcell := snr_cell (ar := ar) (noisePower := noisePower) (floor := floor) (o := o) hget p1
  refine ⟨i, c, off i, w, hil', y3, y4, by omega, by omega, g4, ?_⟩
  rw [hw, Int.toNat_natCast, Int.cast_natCast] at hcell
  rw [hcell, g2] at x2
  refine ⟨x2, ?_⟩
  have hc := hd.counts _ _ _ x3
  simp only [q1, q2, q3, Option.getD_some] at hc
  rw [q4, q5, q6, g2, hw, Int.toNat_natCast] at hc
  exact ⟨hc.1, hc.2.2⟩

omit [Field F] [LinearOrder F] [IsStrictOrderedRing F] in
theorem mem_path {N T w : Nat} {up : Bool} {span : Int} {off : Nat → Int} {c : Int} {s : Nat × Int}
    (h : s ∈ path N T up span w off c) :
    s.1 < T ∧ ∃ k < w, pathChannel N up span (off s.1) k c = some s.2 := by
  unfold path at h
  simp only [List.mem_flatMap, List.mem_range, List.mem_filterMap] at h
  obtain ⟨t, ht, k, hk, e⟩ := h
  simp only [Option.map_eq_some_iff] at e
  obtain ⟨y, hy, rfl⟩ := e
  exact ⟨ht, k, hk, hy⟩

/-- A smeared tone is found, and the hit is one that `filter_hits` keeps, when nothing near the tone has a flag of
band edge or low kurtosis. -/
theorem smeared_clear (R24 : Rounding 24) (R53 : Rounding 53) (hz : Fl → Fl) (ar : Arith F Fl)
    (fltMin : F) (junk : Coord → Int) (cc : Channel Fl) (ro : RateOptions) (op : Options F)
    (tiny : Fl → Bool) (zeroDrift : Bool) (T N : Nat) (X : Nat → Int → F) (Q : Nat → Int → UInt8)
    (hd : Defined ro T N) (hdes : ro.desmear = true)
    {S : Int} (hS : ∀ i : Nat, (i : Int) < (ro.high - ro.low).tdiv ro.step → |ro.low + i * ro.step| ≤ S)
    {most : Int} (hmost : 1 ≤ most ∧ most ≤ 2 ^ 24)
    (hsteps : ∀ i : Nat, (i : Int) < (ro.high - ro.low).tdiv ro.step →
      |ro.low + i * ro.step| ≤ most * ((T : Int) - 1))
    (hm : op.method = .connectedComponents) (hmin : 0 ≤ fltMin) (hthr : fltMin ≤ op.thr)
    {c₀ d : Int} {i₀ w : Nat} (hi₀ : (i₀ : Int) < (ro.high - ro.low).tdiv ro.step)
    (hd₀ : d = ro.low + i₀ * ro.step) (hw : ChannelsPerStep T d w)
    (hstart : 0 ≤ c₀ ∧ c₀ < N) (hstop : 0 ≤ c₀ + d ∧ c₀ + d < N) {ch : Nat → Int} (hline : ToneLine T c₀ d ch)
    (hband : ∀ t < T, ∀ c : Int, InWindow d w (ch t) c → 0 ≤ c ∧ c < N)
    {level : F} {p : Nat → F} (hlevel : 0 ≤ level) (htone : SmearedTone N T X d w ch level p)
    (hflags : ∀ t < T, ∀ c : Int, |c - ch t| ≤ S + 2 * most → ∀ t', Q t' c &&& 1 = 0 ∧ Q t' c &&& 2 = 0)
    (hrate : zeroDrift = true → tiny (hz (.fin (R24.r ((d : ℚ) / ((T : ℚ) - 1))))) = false)
    (noisePower floor : F) (hnoise : ∀ m : Int, 1 ≤ m → m ≤ most → 0 < driftNoise ar noisePower (T * m))
    (hfalls : NoiseFalls (fun m => driftNoise ar noisePower (T * m)) most)
    (hsteady : NoiseSteady (fun m => driftNoise ar noisePower (T * m)) most)
    (hfl : floor ≤ level) (hclear : ∀ t < T, most * (level - floor) < p t - level)
    (habove : op.thr < ((∑ t ∈ Finset.range T, p t) / (T : F) - floor) / driftNoise ar noisePower (T * w))
    (hback : (level - floor) / driftNoise ar noisePower (T * most) ≤ op.thr) :
    ∃ (hs : List (Hit F Fl)) (hit : Hit F Fl),
      driftSearch R24 R53 hz ar fltMin junk cc (denseInput T N X Q) ro noisePower floor op = .ok hs ∧ hit ∈ hs ∧
      hit.startFreqIndex = c₀ ∧ hit.rateIndex = i₀ ∧
      hit.driftRate = hz (.fin (R24.r ((d : ℚ) / ((T : ℚ) - 1)))) ∧
      hit.snr = ((∑ t ∈ Finset.range T, p t) / (T : F) - floor) / driftNoise ar noisePower (T * w) ∧
      (∀ hit' ∈ hs, hit'.snr ≤ hit.snr) ∧ Acceptable tiny zeroDrift hit := by
  have hin := denseInput_holds T N X Q
  have hhalf : ∀ v : F, op.thr < v → op.thr / 2 < v := fun v hv =>
    lt_of_le_of_lt (half_le_self (hmin.trans hthr)) hv
  have hlow : ∀ v : F, op.thr < v → fltMin < v := fun v hv => lt_of_le_of_lt hthr hv
  have hwm : (w : Int) ≤ most := widths_le hd.steps.1 hw hsteps hi₀ hd₀ hmost.1
  have hS0 : 0 ≤ S := (abs_nonneg _).trans (hS i₀ hi₀)
  obtain ⟨hs, hit, e1, e2, e3, e4, e5, e6, e7⟩ := C155_tone_over_noise_partial R24 R53 hz ar fltMin junk cc hin
    ⟨rfl, rfl⟩ (ro := ro) hd.steps.1 hd.steps.2 hd.step hdes hd.range hi₀ hd₀ hw hstart hstop hline hband
    noisePower floor hlevel hfl htone op hm hmost hsteps hnoise hfalls hsteady hclear hmin hthr habove
  -- the line whose flags the hit carries goes through the tone
  obtain ⟨i, c, off, v, i1, c1, c2, v1, v2, hstr, habv, hf2, hf1⟩ := hit_flags R24 R53 hz ar fltMin junk cc
    hin ⟨rfl, rfl⟩ (ro := ro) hd.steps.1 hd.steps.2 hd.step hd.some hd.range hmost hsteps noisePower
    floor op hm hhalf hlow e1 hit e2
  have hT0 : (0 : F) < (T : F) := by
    have : 0 < T := by have := hd.steps.1; omega
    exact_mod_cast this
  have hv0 : (0 : F) < (v : F) := by exact_mod_cast v1
  have hnm : driftNoise ar noisePower (T * most) ≤ driftNoise ar noisePower (T * v) := by
    rcases eq_or_lt_of_le v2 with h | h
    · rw [h]
    · exact (hfalls v most (by omega) h le_rfl).1.le
  have hmeet : ∃ t < T, ∃ q < v, InWindow d w (ch t) (binChannel (ro.low + i * ro.step) (c + off t) q) := by
    by_contra hno
    push Not at hno
    have hov : ∀ t < T, overlap d w (ch t) (ro.low + i * ro.step) v (c + off t) = 0 := by
      intro t ht
      unfold overlap
      rw [Finset.card_eq_zero, Finset.filter_eq_empty_iff]
      intro q hq
      exact hno t ht q (Finset.mem_range.1 hq)
    refine absurd habv (not_lt.mpr (le_trans ?_ hback))
    refine le_trans (b := (level - floor) / driftNoise ar noisePower (T * v)) ?_ ?_
    · refine div_le_div_of_nonneg_right (sub_le_sub_right ?_ _) (hnoise v (by omega) v2).le
      refine (div_le_iff₀ hT0).mpr ?_
      rw [pathSum_bins]
      calc _ ≤ ∑ _t ∈ Finset.range T, level := by
            refine Finset.sum_le_sum fun t ht => ?_
            have ht' := Finset.mem_range.mp ht
            rw [← Finset.sum_div, Int.cast_natCast, div_le_iff₀ hv0]
            have := bins_le htone hlevel hstr ht' c1 c2 v
            rw [hov t ht', Nat.cast_zero, zero_mul, add_zero] at this
            exact this.trans_eq (mul_comm _ _)
        _ = level * T := by rw [Finset.sum_const, Finset.card_range, nsmul_eq_mul, mul_comm]
    · exact div_le_div_of_nonneg_left (sub_nonneg.2 hfl) (hnoise most hmost.1 le_rfl) hnm
  obtain ⟨t₁, ht₁, q₁, hq₁, hm₁⟩ := hmeet
  have hcl : ∀ s ∈ path N T (decide (0 ≤ ro.low + i * ro.step)) (ro.low + i * ro.step) v off c,
      Q s.1 s.2 &&& 1 = 0 ∧ Q s.1 s.2 &&& 2 = 0 := by
    intro s hsm
    obtain ⟨s1, q, hq, s2⟩ := mem_path hsm
    have a1 := hstr.inside s.1 s1
    have a2 := hstr.inside t₁ ht₁
    have a3 := hS i i1
    rw [abs_le] at a3
    refine hflags t₁ ht₁ s.2 ?_ s.1
    unfold InWindow binChannel at hm₁
    unfold pathChannel at s2
    rw [abs_le]
    by_cases h0 : 0 ≤ ro.low + i * ro.step
    · rw [max_eq_right h0, min_eq_left h0] at a1 a2
      simp only [h0, decide_true, if_true] at hm₁ s2
      split at s2
      · have s3 := Option.some.inj s2
        split at hm₁ <;> omega
      · cases s2
    · rw [max_eq_left (by omega), min_eq_right (by omega)] at a1 a2
      simp only [h0, decide_false, if_false, Bool.false_eq_true] at hm₁ s2
      split at s2
      · have s3 := Option.some.inj s2
        split at hm₁ <;> omega
      · cases s2
  have hzero : ∀ f : UInt8, (f = 1 ∨ f = 2) → pathFlags Q f
        (path N T (decide (0 ≤ ro.low + i * ro.step)) (ro.low + i * ro.step) v off c) = 0 := by
    intro f hf
    unfold pathFlags
    rw [List.countP_eq_zero]
    intro s hsm
    have := hcl s hsm
    rcases hf with rfl | rfl
    · simpa using this.1
    · simpa using this.2
  have z1 := hzero 1 (Or.inl rfl)
  have z2 := hzero 2 (Or.inr rfl)
  have hacc : Acceptable tiny zeroDrift hit := by
    refine ⟨?_, ?_, ?_⟩
    · exact (congrArg (fun x => Option.getD x 0) hf1).trans (congrArg (· % 256) z1)
    · exact (congrArg (fun x => Option.getD x 0) hf2).trans (congrArg (· % 256) z2)
    · rintro ⟨w1, w2⟩
      rw [e5] at w2
      have := hrate w1
      rw [show (denseInput T N X Q).timeSteps = T from rfl, this] at w2
      cases w2
  exact ⟨hs, hit, e1, e2, e3, e4, e5, e6, fun h' hh' => (e7 h' hh').1, hacc⟩

/-- **C147, smeared tones.** A coarse channel with a tone that drifts several channels per time step and is spread
over as many, flagged at the band edges and by spectral kurtosis, with its noise measured from the samples
without a flag, searched with desmearing and filtered: if the tone's drift is searched, no channel near it is
flagged as edge or for low kurtosis, everything else is at most `level`, which alone is not above the threshold,
and the tone is clear of that, then the tone is reported with its start, its drift and its SNR, and it is the
strongest of the hits.

Missing: float rounding of the sums. -/
theorem C147_smeared_tone_survives_partial (R24 : Rounding 24) (R53 : Rounding 53) (hz : Fl → Fl)
    (ar : Arith F Fl)
    (fltMin : F) (junk : Coord → Int) (cc : Channel Fl) (width : Int → Int) (so : SkOps F)
    (lt gt : F → Bool) (nsk : Int) (dSk : F) (o : StatOps F D) (ro : RateOptions) (op : Options F)
    (tiny : Fl → Bool) (zeroDrift : Bool) (j : Nat → Nat → Int → Val F) (h : Heap (Val F))
    (T N : Nat) (X : Nat → Int → F) (k : Int) (bd bm : Nat) (hr : FlagRange width nsk T N k)
    (hload : Loaded h T N X bd bm) (hd : Defined ro T N) (hdes : ro.desmear = true)
    {S : Int} (hS : ∀ i : Nat, (i : Int) < (ro.high - ro.low).tdiv ro.step → |ro.low + i * ro.step| ≤ S)
    {most : Int} (hmost : 1 ≤ most ∧ most ≤ 2 ^ 24)
    (hsteps : ∀ i : Nat, (i : Int) < (ro.high - ro.low).tdiv ro.step →
      |ro.low + i * ro.step| ≤ most * ((T : Int) - 1))
    (hm : op.method = .connectedComponents) (hmin : 0 ≤ fltMin) (hthr : fltMin ≤ op.thr)
    {c₀ d : Int} {i₀ w : Nat} (hi₀ : (i₀ : Int) < (ro.high - ro.low).tdiv ro.step)
    (hd₀ : d = ro.low + i₀ * ro.step) (hw : ChannelsPerStep T d w)
    (hstart : 0 ≤ c₀ ∧ c₀ < N) (hstop : 0 ≤ c₀ + d ∧ c₀ + d < N) {ch : Nat → Int} (hline : ToneLine T c₀ d ch)
    {level : F} {p : Nat → F} (hlevel : 0 ≤ level) (htone : SmearedTone N T X d w ch level p)
    (haway : Away so lt nsk dSk k T N X ch (S + 2 * most))
    (hrate : zeroDrift = true → tiny (hz (.fin (R24.r ((d : ℚ) / ((T : ℚ) - 1))))) = false)
    (hsome : clean T N (flagsOf so lt gt nsk dSk k T N X) ≠ []) :
    let l := clean T N (flagsOf so lt gt nsk dSk k T N X)
    let noise := fun m : Int => driftNoise ar (powerOf o X l) (T * m)
    let floor := floorOf o X l
    (∀ m : Int, 1 ≤ m → m ≤ most → 0 < noise m) → NoiseFalls noise most → NoiseSteady noise most →
    floor ≤ level → (∀ t < T, most * (level - floor) < p t - level) →
    op.thr < ((∑ t ∈ Finset.range T, p t) / (T : F) - floor) / noise w →
    (level - floor) / noise most ≤ op.thr →
    ∃ (hits : List (Hit F Fl)) (hit : Hit F Fl),
      searchFlagged R24 R53 hz ar fltMin junk cc width so lt gt nsk dSk o ro op tiny zeroDrift
        (dense bd [(T : Int), (N : Int)]) (dense bm [(T : Int), (N : Int)]) j h = .ok hits ∧
      hit ∈ hits ∧ hit.startFreqIndex = c₀ ∧ hit.rateIndex = i₀ ∧
      hit.driftRate = hz (.fin (R24.r ((d : ℚ) / ((T : ℚ) - 1)))) ∧
      hit.snr = ((∑ t ∈ Finset.range T, p t) / (T : F) - floor) / noise w ∧
      ∀ hit' ∈ hits, hit'.snr ≤ hit.snr := by
  intro l noise floor hnoise hfalls hsteady hfl hclear habove hback
  have hwm : (w : Int) ≤ most := widths_le hd.steps.1 hw hsteps hi₀ hd₀ hmost.1
  have hS0 : 0 ≤ S := (abs_nonneg _).trans (hS i₀ hi₀)
  have hk1 := hr.some
  obtain ⟨hs, hit, e1, e2, e3, e4, e5, e6, e7, hacc⟩ := smeared_clear R24 R53 hz ar fltMin junk cc ro op tiny
    zeroDrift T N X (flagsOf so lt gt nsk dSk k T N X) hd hdes hS hmost hsteps hm hmin hthr hi₀ hd₀ hw hstart hstop
    hline (by
      intro t ht c hc
      have := haway t ht c (by
        unfold InWindow at hc
        rw [abs_le]
        split at hc <;> omega)
      omega) hlevel htone
    (fun t ht x hx t' => by
      obtain ⟨v1, v2, v3⟩ := haway t ht x hx
      exact flags_clear so lt gt nsk dSk k T N X t' v1 v2 v3)
    hrate (powerOf o X l) floor hnoise hfalls hsteady hfl hclear habove hback
  have hrun := (C117_search R24 R53 hz ar fltMin junk cc width so lt gt nsk dSk o ro op tiny
    zeroDrift j h T N X k bd bm hr hload).2 hs hsome e1
  have hsort := driftSearch_sorted e1
  refine ⟨_, touched hit, hrun, ?_, e3, e4, e5, e6, ?_⟩
  · rw [filterHits_eq tiny zeroDrift hs hsort]
    exact List.mem_map.mpr ⟨hit, List.mem_filter.mpr ⟨e2, by simpa using hacc⟩, rfl⟩
  · intro hit' hh'
    rw [filterHits_eq tiny zeroDrift hs hsort] at hh'
    obtain ⟨g, hg, rfl⟩ := List.mem_map.mp hh'
    exact e7 g (List.mem_filter.mp hg).1

/-- Noise of 1 and 2 and a tone of 90 that starts in channel `a`, moves by two channels per time step and is in
two channels at a time. -/
def smearChan (a : Int) (t : Nat) (c : Int) : ℚ :=
  if a + 2 * t ≤ c ∧ c < a + 2 * t + 2 then 90 else if (c + t) % 2 = 0 then 1 else 2

def smearMem (a : Int) : Heap (Val ℚ) where
  mem b i := if 0 ≤ i ∧ i < 96 then
      (if b = 0 then some (.num (smearChan a (i / 32).toNat (i % 32))) else if b = 1 then some (.flag 0)
        else none)
    else none
  next := 2

theorem smearLoaded (a : Int) : Loaded (smearMem a) 3 32 (smearChan a) 0 1 where
  apart := by decide
  dataIn := Nat.zero_lt_two
  maskIn := Nat.one_lt_two
  data := by
    intro i hi
    obtain ⟨t, ch, rfl, h1, h2, h3, h4⟩ := valid2 hi
    have e : addr (dense 0 [((3 : Nat) : Int), ((32 : Nat) : Int)]).dims [t, ch] = 32 * t + ch := by
      simp [addr, dense, denseDims]
      try ring
    show (smearMem a).mem 0 _ = _
    rw [e]
    have e1 : (32 * t + ch) / 32 = t := by omega
    have e2 : (32 * t + ch) % 32 = ch := by omega
    have e3 : 0 ≤ 32 * t + ch ∧ 32 * t + ch < 96 := by omega
    simp only [smearMem, e3, e1, e2, onIdx]
    simp
  mask := by
    intro i hi
    obtain ⟨t, ch, rfl, h1, h2, h3, h4⟩ := valid2 hi
    have e : addr (dense 1 [((3 : Nat) : Int), ((32 : Nat) : Int)]).dims [t, ch] = 32 * t + ch := by
      simp [addr, dense, denseDims]
      try ring
    show (smearMem a).mem 1 _ = _
    rw [e]
    have e3 : 0 ≤ 32 * t + ch ∧ 32 * t + ch < 96 := by omega
    simp [smearMem, e3]

def smearRun (a : Int) : Option (List (Int × Int)) :=
  match searchFlagged (nearestEven 24 (by norm_num)) (nearestEven 53 (by norm_num)) id ratArith
    (2 ^ (-126 : ℤ)) (fun _ => 0) ⟨.fin 0, .fin 1, .fin 0, .fin 1, 0⟩ (fun _ => 1) ratSk
    (fun x => decide (x < 1 / 20)) (fun x => decide (5 < x)) 1 2 (ieeeOps binSqrt)
    { low := 0, high := 5, step := 1 } ⟨.connectedComponents, 250, 1⟩
    (fun x => match x with | .fin q => decide (|q| < 1 / 1000000) | _ => false) true
    (dense 0 [(3 : Nat), (32 : Nat)]) (dense 1 [(3 : Nat), (32 : Nat)]) (fun _ _ _ => .flag 0) (smearMem a) with
  | .ok l => some (l.map fun h => (h.startFreqIndex, h.rateIndex))
  | _ => none

-- the tone is reported, after two weaker lines through part of it; one that runs into the flagged edge is not
example : smearRun 12 = some [(12, 3), (13, 3), (12, 4)] ∧ smearRun 26 = some [] := by decide +kernel

-- a channel and options that meet every hypothesis of the theorem
example :
    let X := smearChan 12
    let ch : Nat → Int := fun t => 12 + 2 * t
    let ro : RateOptions := { low := 0, high := 5, step := 1 }
    let lt : ℚ → Bool := fun x => decide (x < 1 / 20)
    let l := clean 3 32 (flagsOf ratSk lt (fun x => decide (5 < x)) 1 2 1 3 32 X)
    let noise := fun m : Int => driftNoise ratArith (powerOf (ieeeOps binSqrt) X l) (3 * m)
    let floor := floorOf (ieeeOps binSqrt) X l
    Loaded (smearMem 12) 3 32 X 0 1 ∧ FlagRange (fun _ => 1) 1 3 32 1 ∧ Defined ro 3 32 ∧
      (∀ i : Nat, (i : Int) < (ro.high - ro.low).tdiv ro.step →
        |ro.low + i * ro.step| ≤ 4 ∧ |ro.low + i * ro.step| ≤ 2 * ((3 : Int) - 1)) ∧
      ChannelsPerStep 3 4 2 ∧ ToneLine 3 12 4 ch ∧ SmearedTone 32 3 X 4 2 ch 2 (fun _ => 90) ∧
      Away ratSk lt 1 2 1 3 32 X ch (4 + 2 * 2) ∧ (4 : Int) = ro.low + (4 : Nat) * ro.step ∧ l ≠ [] ∧
      (∀ m : Int, 1 ≤ m → m ≤ 2 → 0 < noise m) ∧ NoiseFalls noise 2 ∧ NoiseSteady noise 2 ∧
      floor ≤ 2 ∧ (2 : ℚ) * (2 - floor) < 90 - 2 ∧ 250 < (90 - floor) / noise 2 ∧
      (2 - floor) / noise 2 ≤ 250 := by
  have hrange : ∀ i : Nat, (i : Int) < ((5 : Int) - 0).tdiv 1 → i < 5 := by
    intro i hi
    have : ((5 : Int) - 0).tdiv 1 = 5 := by decide
    simp only [this] at hi
    omega
  refine ⟨smearLoaded 12, ⟨by decide, rfl, by decide, by decide, by decide⟩,
    ⟨by decide, by decide, by decide, fun i hi => ?_⟩, fun i hi => ?_,
    ⟨by norm_num, .inr (by norm_num)⟩, ⟨?_⟩, ⟨?_, ?_, ?_⟩, ?_, by decide, ?_, ?_, ?_, ?_, ?_, ?_, ?_, ?_⟩
  · have := hrange i hi
    interval_cases i <;> decide
  · have := hrange i hi
    interval_cases i <;> decide
  · intro t ht
    interval_cases t <;> norm_num
  · intro t ht c _ _ h
    unfold InWindow at h
    exact if_pos (by simpa using h)
  · intro t ht c _ _ h
    unfold InWindow at h
    refine (if_neg (by simpa using h)).le.trans ?_
    split_ifs <;> norm_num
  · intro t _
    norm_num
  · intro t ht c hc
    dsimp only at hc
    rw [abs_le] at hc
    have h1 : 4 ≤ c := by omega
    have h2 : c ≤ 24 := by omega
    interval_cases c <;> decide +kernel
  · decide +kernel
  · intro m h1 h2
    interval_cases m <;> decide +kernel
  · intro a b h1 h2 h3
    obtain rfl : a = 1 := by omega
    obtain rfl : b = 2 := by omega
    decide +kernel
  · intro a b h1 h2 h3
    obtain rfl : a = 1 := by omega
    obtain rfl : b = 2 := by omega
    decide +kernel
  all_goals decide +kernel

end Bliss.Hit
