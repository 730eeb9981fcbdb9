import Verif.Hit.PipelineProps
import Verif.Hit.Recover
import Verif.Flag.OutliersFloat

/-!
# A drifting tone is reported by the whole chain (C147)

The converse of `C117_reported_partial`: a tone that stays away from the flagged channels is still
there after flagging, noise estimate, integration, hit search and `filter_hits`, with the noise
measured from the same data.
-/

namespace Bliss.Hit

open Bliss.Drift Bliss.Comp Bliss.Float Bliss.Nd Bliss.Stat Bliss.Flag

variable {F D : Type} [Field F] [LinearOrder F] [IsStrictOrderedRing F]

/-! ## Specification -/

/-- A tone over a background: it starts in channel `c₀`, drifts by `d` channels, is stronger than the
background level `b` at every time step, and nothing else is above that level. -/
structure ToneOver (T N : Nat) (X : Nat → Int → F) (c₀ d : Int) (ch : Nat → Int) (b : F) : Prop where
  line : ToneLine T c₀ d ch
  start : 0 ≤ c₀ ∧ c₀ < N
  stop : 0 ≤ c₀ + d ∧ c₀ + d < N
  level : 0 ≤ b
  tone : ∀ t < T, b < X t (ch t)
  rest : ∀ t < T, ∀ c : Int, 0 ≤ c → c < N → c ≠ ch t → X t c ≤ b

/-- No channel within `S` of the tone is flagged as band edge or for low spectral kurtosis. -/
def Away (so : SkOps F) (lt : F → Bool) (nsk : Int) (dSk : F) (k : Int) (T N : Nat)
    (X : Nat → Int → F) (ch : Nat → Int) (S : Int) : Prop :=
  ∀ t < T, ∀ c : Int, |c - ch t| ≤ S → k ≤ c ∧ c < (N : Int) - (k + 1) ∧
    lt (skOf so nsk T dSk (onIdx X) (column T c)) = false

/-! ## Proof -/

/-- The flags of a hit of a search without desmearing. -/
theorem hit_flags_plain (R24 : Rounding 24) (R53 : Rounding 53) (hz : Fl → Fl)
    (ar : Arith F Fl) (fltMin : F) (junk : Coord → Int) (cc : Channel Fl) {inp : Input F}
    {grid : Nat → Int → F} {mask : Nat → Int → UInt8} (hin : Holds inp grid mask)
    (hview : inp.specOffset = 0 ∧ inp.rfiOffset = 0) {ro : RateOptions} (hT : 2 ≤ inp.timeSteps)
    (hT' : (inp.timeSteps : Int) - 1 ≤ 2 ^ 24) (hstep : ro.step ≠ 0)
    (hne : 0 < (ro.high - ro.low).tdiv ro.step)
    (hrange : ∀ i : Nat, (i : Int) < (ro.high - ro.low).tdiv ro.step →
      |ro.low + i * ro.step| < 2 ^ 22 ∧ 2 * |ro.low + i * ro.step| ≤ inp.numChannels)
    (hplain : ro.desmear = false ∨ ∀ i : Nat, (i : Int) < (ro.high - ro.low).tdiv ro.step →
      |ro.low + i * ro.step| ≤ (inp.timeSteps : Int) - 1)
    (noisePower floor : F) (o : Options F) (hm : o.method = .connectedComponents)
    (hhalf : ∀ v : F, o.thr < v → o.thr / 2 < v) (hmin : ∀ v : F, o.thr < v → fltMin < v)
    {hs : List (Hit F Fl)}
    (hrun : driftSearch R24 R53 hz ar fltMin junk cc inp ro noisePower floor o = .ok hs) :
    ∀ h ∈ hs, ∃ (i : Nat) (c : Int) (off : Nat → Int), (i : Int) < (ro.high - ro.low).tdiv ro.step ∧
      0 ≤ c ∧ c < inp.numChannels ∧
      StraightPath (ro.low + i * ro.step) inp.timeSteps (2 ^ (-23 : ℤ) + 2 ^ (-51 : ℤ)) off ∧
      o.thr < ((∑ t ∈ Finset.range inp.timeSteps, contribution inp.numChannels
          (decide (0 ≤ ro.low + i * ro.step)) (ro.low + i * ro.step) off grid c t) /
        (inp.timeSteps : F) - floor) / driftNoise ar noisePower inp.timeSteps ∧
      let line := path inp.numChannels inp.timeSteps (decide (0 ≤ ro.low + i * ro.step))
          (ro.low + i * ro.step) 1 off c
      h.rfi.lookup 2 = some (pathFlags mask 2 line % 256) ∧
      h.rfi.lookup 1 = some (pathFlags mask 1 line % 256) := by
  obtain ⟨a, rates, off, h1, h2, h3⟩ :=
    C07_defined_partial R24 R53 hz hin hview hT hT' hstep hne hrange
  obtain ⟨cs, hs', e1, e2, e3, _⟩ := hitSearch_covers ar fltMin junk cc (planeOf inp a rates)
    noisePower floor o hm (fun _ _ _ => lt_trans) (fun _ => lt_irrefl _) (by simp [planeOf]) hhalf hmin
  have hrun' : driftSearch R24 R53 hz ar fltMin junk cc inp ro noisePower floor o = .ok hs' := by
    simp only [driftSearch, h1, Outcome.bind_ok]; exact e2
  rw [hrun] at hrun'
  obtain rfl := Outcome.ok.inj hrun'
  intro h hh
  obtain ⟨j, hj, rfl⟩ := List.getElem_of_mem hh
  have hlen := e3.length_eq
  have hjc : j < cs.length := by omega
  have hd : Describes ar cc (planeOf inp a rates) noisePower floor o.thr cs[j] hs[j] :=
    (List.forall₂_iff_get.1 e3).2 j hjc hj
  obtain ⟨x, rest, x1, x2, x3, _⟩ := Comp.C16_counts_at_first_cell_partial _ fltMin hhalf hmin e1
    (List.getElem_mem hjc)
  obtain ⟨cs', f1, _, f3, _⟩ :=
    Comp.C12_clusters_disjoint_complete_partial
      (toSearch ar (planeOf inp a rates) noisePower floor o) fltMin
  rw [e1] at f1
  obtain rfl := Outcome.ok.inj f1
  obtain ⟨hx, _⟩ := f3 _ (List.getElem_mem hjc) x (by rw [x1]; exact List.mem_cons_self)
  obtain ⟨xi, c⟩ := x
  obtain ⟨y1, y2, y3, y4⟩ := hx
  simp only [toSearch, planeOf] at y1 y2 y3 y4
  obtain ⟨i, rfl⟩ : ∃ i : Nat, xi = i := ⟨xi.toNat, (Int.toNat_of_nonneg y1).symm⟩
  have hil : i < rates.length := by exact_mod_cast y2
  have hget := List.getElem?_eq_getElem hil
  obtain ⟨_, g2, g3, g4, g5⟩ := h3 i _ hget
  obtain ⟨p1, l, hi, ro', q1, q2, q3, q4, q5, q6⟩ := g5 c y3 y4
  have hil' : (i : Int) < (ro.high - ro.low).tdiv ro.step := by omega
  have hrg := hrange i hil'
  have hdes : rates[i].desmear = 1 := by
    refine (rates_plain h1 hT hT' hget (by omega)).2 ?_
    rcases hplain with h | h
    · exact Or.inl h
    · exact Or.inr (h i hil')
  rw [g2] at g4
  refine ⟨i, c, off i, hil', y3, y4, g4, ?_⟩
  rw [hdes] at p1
  have hcell := snr_cell (ar := ar) (noisePower := noisePower) (floor := floor) (o := o) hget p1
  rw [hdes, mul_one, show (1 : Int).toNat = 1 from rfl, pathSum_one, Int.cast_natCast] at hcell
  rw [hcell, g2] at x2
  refine ⟨x2, ?_⟩
  have hc := hd.counts _ _ _ x3
  simp only [q1, q2, q3, Option.getD_some] at hc
  rw [q4, q5, q6, g2, hdes] at hc
  exact ⟨hc.1, hc.2.2⟩

omit [Field F] [LinearOrder F] [IsStrictOrderedRing F] in
theorem mem_path_plain {N T : Nat} {up : Bool} {span : Int} {off : Nat → Int} {c : Int} {s : Nat × Int}
    (h : s ∈ path N T up span 1 off c) :
    s.1 < T ∧ pathChannel N up span (off s.1) 0 c = some s.2 := by
  unfold path at h
  simp only [List.mem_flatMap, List.mem_range, List.mem_filterMap] at h
  obtain ⟨t, ht, k, hk, e⟩ := h
  obtain rfl : k = 0 := by omega
  simp only [Option.map_eq_some_iff] at e
  obtain ⟨y, hy, rfl⟩ := e
  exact ⟨ht, hy⟩

/-- A tone over a background in a channel with any flags, none of them at the edge or for low kurtosis
within the reach `S` of the tone: the search reports it, strongest of all, and `filter_hits` would keep
it. -/
theorem tone_clear (R24 : Rounding 24) (R53 : Rounding 53) (hz : Fl → Fl) (ar : Arith F Fl)
    (fltMin : F) (junk : Coord → Int) (cc : Channel Fl) (ro : RateOptions) (op : Options F)
    (tiny : Fl → Bool) (zeroDrift : Bool)
    (T N : Nat) (X : Nat → Int → F) (Q : Nat → Int → UInt8) (hd : Defined ro T N)
    (hplain : ro.desmear = false ∨ ∀ i : Nat, (i : Int) < (ro.high - ro.low).tdiv ro.step →
      |ro.low + i * ro.step| ≤ (T : Int) - 1)
    {S : Int} (hS : ∀ i : Nat, (i : Int) < (ro.high - ro.low).tdiv ro.step →
      |ro.low + i * ro.step| ≤ S)
    (hm : op.method = .connectedComponents) (hmin : 0 ≤ fltMin) (hthr : fltMin ≤ op.thr)
    {c₀ d : Int} {i₀ : Nat} (hi₀ : (i₀ : Int) < (ro.high - ro.low).tdiv ro.step)
    (hd₀ : d = ro.low + i₀ * ro.step) {ch : Nat → Int} {b : F} (htone : ToneOver T N X c₀ d ch b)
    (haway : ∀ t < T, ∀ c : Int, |c - ch t| ≤ S → ∀ t' < T, Q t' c &&& 1 = 0 ∧ Q t' c &&& 2 = 0)
    (hrate : zeroDrift = true → tiny (hz (.fin (R24.r ((d : ℚ) / ((T : ℚ) - 1))))) = false)
    (power floor : F) :
    let noise := driftNoise ar power T
    let snr := fun v : F => (v - floor) / noise
    0 < noise →
    op.thr < snr ((∑ t ∈ Finset.range T, X t (ch t)) / (T : F)) →
    snr b ≤ op.thr →
    ∃ (hs : List (Hit F Fl)) (hit : Hit F Fl),
      driftSearch R24 R53 hz ar fltMin junk cc (denseInput T N X Q) ro power floor op = .ok hs ∧
      hit ∈ hs ∧ hit.startFreqIndex = c₀ ∧ hit.rateIndex = i₀ ∧
      hit.driftRate = hz (.fin (R24.r ((d : ℚ) / ((T : ℚ) - 1)))) ∧
      hit.snr = snr ((∑ t ∈ Finset.range T, X t (ch t)) / (T : F)) ∧
      (∀ hit' ∈ hs, hit'.snr ≤ hit.snr) ∧ Acceptable tiny zeroDrift hit := by
  intro noise snr hnoise habove hback
  have hin := denseInput_holds T N X Q
  have hhalf : ∀ v : F, op.thr < v → op.thr / 2 < v := fun v hv =>
    lt_of_le_of_lt (half_le_self (hmin.trans hthr)) hv
  have hlow : ∀ v : F, op.thr < v → fltMin < v := fun v hv => lt_of_le_of_lt hthr hv
  have hdom : Dominates N T X ch :=
    ⟨fun t ht c h0 hc hne => lt_of_le_of_lt (htone.rest t ht c h0 hc hne) (htone.tone t ht),
      fun t ht => lt_of_le_of_lt htone.level (htone.tone t ht)⟩
  obtain ⟨hs, hit, e1, e2, e3, e4, e5, e6, e7, -⟩ := C87_tone_recovered_partial R24 R53 hz ar fltMin
    junk cc hin ⟨rfl, rfl⟩ (ro := ro) hd.steps.1 hd.steps.2 hd.step hd.range hplain hi₀ hd₀ htone.start
    htone.stop htone.line hdom power floor op hm hnoise hmin hthr habove
  -- the line whose flags the hit carries goes through the tone
  obtain ⟨i, c, off, i1, c1, c2, hstr, habv, hf2, hf1⟩ := hit_flags_plain R24 R53 hz ar fltMin junk cc
    hin ⟨rfl, rfl⟩ (ro := ro) hd.steps.1 hd.steps.2 hd.step hd.some hd.range hplain power
    floor op hm hhalf hlow e1 hit e2
  have hT0 : (0 : F) < (T : F) := by
    have : 0 < T := by have := hd.steps.1; omega
    exact_mod_cast this
  have hmeet : ∃ t < T, c + off t = ch t := by
    by_contra hno
    push Not at hno
    refine absurd habv (not_lt.mpr (le_trans ?_ hback))
    refine div_le_div_of_nonneg_right (sub_le_sub_right ?_ _) hnoise.le
    refine (div_le_iff₀ (by exact hT0)).mpr ?_
    calc _ ≤ ∑ _t ∈ Finset.range T, b := by
          refine Finset.sum_le_sum fun t ht => ?_
          have ht' := Finset.mem_range.mp ht
          show contribution N _ _ off X c t ≤ b
          unfold contribution
          cases hp : pathChannel N (decide (0 ≤ ro.low + i * ro.step)) (ro.low + i * ro.step) (off t) 0 c with
          | none => exact htone.level
          | some y =>
            obtain ⟨y1, y2, y3⟩ := pathChannel_inside hstr ht' c1 c2 hp
            exact htone.rest t ht' y y2 y3 (by rw [y1]; exact hno t ht')
      _ = b * T := by rw [Finset.sum_const, Finset.card_range, nsmul_eq_mul, mul_comm]
  obtain ⟨t₁, ht₁, hm₁⟩ := hmeet
  have hclear : ∀ s ∈ path N T (decide (0 ≤ ro.low + i * ro.step)) (ro.low + i * ro.step) 1 off c,
      Q s.1 s.2 &&& 1 = 0 ∧ Q s.1 s.2 &&& 2 = 0 := by
    intro s hsm
    obtain ⟨s1, s2⟩ := mem_path_plain hsm
    obtain ⟨y1, -, -⟩ := pathChannel_inside hstr s1 c1 c2 s2
    refine haway t₁ ht₁ s.2 ?_ s.1 s1
    have a1 := hstr.inside s.1 s1
    have a2 := hstr.inside t₁ ht₁
    have a3 := hS i i1
    rw [← hm₁, y1]
    rw [abs_le] at a3 ⊢
    have b3 : max 0 (ro.low + i * ro.step) - min 0 (ro.low + i * ro.step) ≤ S := by
      rcases le_total 0 (ro.low + i * ro.step) with h0 | h0
      · rw [max_eq_right h0, min_eq_left h0]; omega
      · rw [max_eq_left h0, min_eq_right h0]; omega
    constructor <;> omega
  have hzero : ∀ f : UInt8, (f = 1 ∨ f = 2) → pathFlags Q f
        (path N T (decide (0 ≤ ro.low + i * ro.step)) (ro.low + i * ro.step) 1 off c) = 0 := by
    intro f hf
    unfold pathFlags
    rw [List.countP_eq_zero]
    intro s hsm
    have := hclear s hsm
    rcases hf with rfl | rfl
    · simpa using this.1
    · simpa using this.2
  have z1 := hzero 1 (Or.inl rfl)
  have z2 := hzero 2 (Or.inr rfl)
  have hacc : Acceptable tiny zeroDrift hit := by
    refine ⟨?_, ?_, ?_⟩
    · exact (congrArg (fun x => Option.getD x 0) hf1).trans (congrArg (· % 256) z1)
    · exact (congrArg (fun x => Option.getD x 0) hf2).trans (congrArg (· % 256) z2)
    · rintro ⟨w1, w2⟩
      rw [e5] at w2
      have := hrate w1
      rw [show (denseInput T N X Q).timeSteps = T from rfl, this] at w2
      cases w2
  exact ⟨hs, hit, e1, e2, e3, e4, e5, e6, fun hit' hh => (e7 hit' hh).1, hacc⟩

omit [Field F] [LinearOrder F] [IsStrictOrderedRing F] in
theorem flags_clear (so : SkOps F) (lt gt : F → Bool) (nsk : Int) (dSk : F) (k : Int) (T N : Nat)
    (X : Nat → Int → F) (t : Nat) {e : Int} (v1 : k ≤ e) (v2 : e < (N : Int) - (k + 1))
    (v3 : lt (skOf so nsk T dSk (onIdx X) (column T e)) = false) :
    flagsOf so lt gt nsk dSk k T N X t e &&& 1 = 0 ∧ flagsOf so lt gt nsk dSk k T N X t e &&& 2 = 0 := by
  have hb := flag_bits (decide (e < k ∨ (N : Int) - (k + 1) ≤ e))
      (lt (skOf so nsk T dSk (onIdx X) (column T e)))
      (gt (skOf so nsk T dSk (onIdx X) (column T e)))
  have h1 := hb.1.mpr (by rw [decide_eq_false_iff_not]; omega)
  have h2 := hb.2.mpr v3
  simp only [decide_eq_true_eq] at h1 h2
  exact ⟨by simpa only [flagsOf] using h1, by simpa only [flagsOf] using h2⟩

/-- **C147.** Take a channel with a tone over a background, and search it with the steps of
`bliss_find_hits`: flags at the band edges and by spectral kurtosis, noise from the samples without a
flag, integration, hit search, `filter_hits`. Suppose the tone's drift is one of those searched, all of
which are at most `S` channels and not desmeared; no channel within `S` of the tone is an edge channel
or one of low spectral kurtosis (it may have high kurtosis, as the channels of a drifting tone do); the
tone's mean power is above the threshold, in terms of the mean and the deviation of the samples without
a flag, and the background level is not; and the drift is not taken for zero. Then the program returns,
and the tone is among the hits: start channel, drift and SNR are the tone's, and no hit is stronger.

Missing: desmeared drifts, float rounding of the sums. -/
theorem C147_tone_survives_partial (R24 : Rounding 24) (R53 : Rounding 53) (hz : Fl → Fl)
    (ar : Arith F Fl)
    (fltMin : F) (junk : Coord → Int) (cc : Channel Fl) (width : Int → Int) (so : SkOps F)
    (lt gt : F → Bool) (nsk : Int) (dSk : F) (o : StatOps F D) (ro : RateOptions) (op : Options F)
    (tiny : Fl → Bool) (zeroDrift : Bool) (j : Nat → Nat → Int → Val F) (h : Heap (Val F))
    (T N : Nat) (X : Nat → Int → F) (k : Int) (bd bm : Nat) (hr : FlagRange width nsk T N k)
    (hload : Loaded h T N X bd bm) (hd : Defined ro T N)
    (hplain : ro.desmear = false ∨ ∀ i : Nat, (i : Int) < (ro.high - ro.low).tdiv ro.step →
      |ro.low + i * ro.step| ≤ (T : Int) - 1)
    {S : Int} (hS : ∀ i : Nat, (i : Int) < (ro.high - ro.low).tdiv ro.step →
      |ro.low + i * ro.step| ≤ S)
    (hm : op.method = .connectedComponents) (hmin : 0 ≤ fltMin) (hthr : fltMin ≤ op.thr)
    {c₀ d : Int} {i₀ : Nat} (hi₀ : (i₀ : Int) < (ro.high - ro.low).tdiv ro.step)
    (hd₀ : d = ro.low + i₀ * ro.step) {ch : Nat → Int} {b : F} (htone : ToneOver T N X c₀ d ch b)
    (haway : Away so lt nsk dSk k T N X ch S)
    (hrate : zeroDrift = true → tiny (hz (.fin (R24.r ((d : ℚ) / ((T : ℚ) - 1))))) = false)
    (hsome : clean T N (flagsOf so lt gt nsk dSk k T N X) ≠ []) :
    let l := clean T N (flagsOf so lt gt nsk dSk k T N X)
    let noise := driftNoise ar (powerOf o X l) T
    let snr := fun v : F => (v - floorOf o X l) / noise
    0 < noise →
    op.thr < snr ((∑ t ∈ Finset.range T, X t (ch t)) / (T : F)) →
    snr b ≤ op.thr →
    ∃ (hits : List (Hit F Fl)) (hit : Hit F Fl),
      searchFlagged R24 R53 hz ar fltMin junk cc width so lt gt nsk dSk o ro op tiny zeroDrift
        (dense bd [(T : Int), (N : Int)]) (dense bm [(T : Int), (N : Int)]) j h = .ok hits ∧
      hit ∈ hits ∧ hit.startFreqIndex = c₀ ∧ hit.rateIndex = i₀ ∧
      hit.driftRate = hz (.fin (R24.r ((d : ℚ) / ((T : ℚ) - 1)))) ∧
      hit.snr = snr ((∑ t ∈ Finset.range T, X t (ch t)) / (T : F)) ∧
      ∀ hit' ∈ hits, hit'.snr ≤ hit.snr := by
  intro l noise snr hnoise habove hback
  obtain ⟨hs, hit, e1, e2, e3, e4, e5, e6, e7, hacc⟩ := tone_clear R24 R53 hz ar fltMin junk cc ro op tiny
    zeroDrift T N X (flagsOf so lt gt nsk dSk k T N X) hd hplain hS hm hmin hthr hi₀ hd₀ htone
    (fun t ht e he t' _ => by
      obtain ⟨v1, v2, v3⟩ := haway t ht e he
      exact flags_clear so lt gt nsk dSk k T N X t' v1 v2 v3)
    hrate (powerOf o X l) (floorOf o X l) hnoise habove hback
  have hrun := (C117_search R24 R53 hz ar fltMin junk cc width so lt gt nsk dSk o ro op tiny
    zeroDrift j h T N X k bd bm hr hload).2 hs hsome e1
  have hsort := driftSearch_sorted e1
  refine ⟨_, touched hit, hrun, ?_, e3, e4, e5, e6, ?_⟩
  · rw [filterHits_eq tiny zeroDrift hs hsort]
    exact List.mem_map.mpr ⟨hit, List.mem_filter.mpr ⟨e2, by simpa using hacc⟩, rfl⟩
  · intro hit' hh'
    rw [filterHits_eq tiny zeroDrift hs hsort] at hh'
    obtain ⟨g, hg, rfl⟩ := List.mem_map.mp hh'
    exact e7 g (List.mem_filter.mp hg).1

/-! ## A channel -/

/-- Double arithmetic with rational `float`s. -/
def ratArith : Arith ℚ Fl where
  toD := .fin
  toF := fun x => match x with | .fin x => x | _ => 0
  ofInt := fun n => .fin (rne 53 n)
  add := fun x y => match x, y with | .fin x, .fin y => .fin (rne 53 (x + y)) | _, _ => .nan
  mul := fun x y => match x, y with | .fin x, .fin y => .fin (rne 53 (x * y)) | _, _ => .nan
  div := fun x y => match x, y with | .fin x, .fin y => .fin (rne 53 (x / y)) | _, _ => .nan
  abs := fun x => match x with | .fin x => .fin |x| | x => x
  sqrt := fun x => match x with | .fin x => .fin (binSqrt x) | x => x
  million := .fin 1000000

/-- Noise of 1 and 2, a tone of 90 that starts in channel `a` and moves by one channel per time step,
and a constant signal of 40 in channel 11. -/
def toneChan (a : Int) (t : Nat) (c : Int) : ℚ :=
  if c = a + t then 90 else if c = 11 then 40 else if (c + t) % 2 = 0 then 1 else 2

def toneMem (a : Int) : Heap (Val ℚ) where
  mem b i := if 0 ≤ i ∧ i < 48 then
      (if b = 0 then some (.num (toneChan a (i / 16).toNat (i % 16))) else if b = 1 then some (.flag 0)
        else none)
    else none
  next := 2

theorem toneLoaded (a : Int) : Loaded (toneMem a) 3 16 (toneChan a) 0 1 where
  apart := by decide
  dataIn := Nat.zero_lt_two
  maskIn := Nat.one_lt_two
  data := by
    intro i hi
    obtain ⟨t, ch, rfl, h1, h2, h3, h4⟩ := valid2 hi
    have e : addr (dense 0 [((3 : Nat) : Int), ((16 : Nat) : Int)]).dims [t, ch] = 16 * t + ch := by
      simp [addr, dense, denseDims]
      try ring
    show (toneMem a).mem 0 _ = _
    rw [e]
    have e1 : (16 * t + ch) / 16 = t := by omega
    have e2 : (16 * t + ch) % 16 = ch := by omega
    have e3 : 0 ≤ 16 * t + ch ∧ 16 * t + ch < 48 := by omega
    simp only [toneMem, e3, e1, e2, onIdx]
    simp
  mask := by
    intro i hi
    obtain ⟨t, ch, rfl, h1, h2, h3, h4⟩ := valid2 hi
    have e : addr (dense 1 [((3 : Nat) : Int), ((16 : Nat) : Int)]).dims [t, ch] = 16 * t + ch := by
      simp [addr, dense, denseDims]
      try ring
    show (toneMem a).mem 1 _ = _
    rw [e]
    have e3 : 0 ≤ 16 * t + ch ∧ 16 * t + ch < 48 := by omega
    simp [toneMem, e3]

def toneRun (a : Int) : Option (List (Int × Int)) :=
  match searchFlagged (nearestEven 24 (by norm_num)) (nearestEven 53 (by norm_num)) id ratArith
    (2 ^ (-126 : ℤ)) (fun _ => 0) ⟨.fin 0, .fin 1, .fin 0, .fin 1, 0⟩ (fun _ => 1) ratSk
    (fun x => decide (x < 1 / 20)) (fun x => decide (5 < x)) 1 2 (ieeeOps binSqrt)
    { low := -2, high := 3, step := 1 } ⟨.connectedComponents, 250, 1⟩
    (fun x => match x with | .fin q => decide (|q| < 1 / 1000000) | _ => false) true
    (dense 0 [(3 : Nat), (16 : Nat)]) (dense 1 [(3 : Nat), (16 : Nat)]) (fun _ _ _ => .flag 0) (toneMem a) with
  | .ok l => some (l.map fun h => (h.startFreqIndex, h.rateIndex))
  | _ => none

-- the tone is reported; one that runs into the flagged edge is not, so the distance matters
example : toneRun 5 = some [(5, 4)] ∧ toneRun 12 = some [] := by decide +kernel

-- a channel and options that meet every hypothesis of the theorem
example :
    let X := toneChan 5
    let ch : Nat → Int := fun t => 5 + t
    let ro : RateOptions := { low := -2, high := 3, step := 1 }
    let lt : ℚ → Bool := fun x => decide (x < 1 / 20)
    let l := clean 3 16 (flagsOf ratSk lt (fun x => decide (5 < x)) 1 2 1 3 16 X)
    let noise := driftNoise ratArith (powerOf (ieeeOps binSqrt) X l) 3
    let snr := fun v : ℚ => (v - floorOf (ieeeOps binSqrt) X l) / noise
    Loaded (toneMem 5) 3 16 X 0 1 ∧ FlagRange (fun _ => 1) 1 3 16 1 ∧ Defined ro 3 16 ∧
      (∀ i : Nat, (i : Int) < (ro.high - ro.low).tdiv ro.step →
        |ro.low + i * ro.step| ≤ (3 : Int) - 1) ∧
      ToneOver 3 16 X 5 2 ch 40 ∧ Away ratSk lt 1 2 1 3 16 X ch 2 ∧ (2 : Int) = ro.low + (4 : Nat) * ro.step ∧
      l ≠ [] ∧ 0 < noise ∧ 250 < snr ((∑ t ∈ Finset.range 3, X t (ch t)) / (3 : Nat)) ∧
      snr 40 ≤ 250 := by
  have hrange : ∀ i : Nat, (i : Int) < ((3 : Int) - -2).tdiv 1 → i < 5 := by
    intro i hi
    have : ((3 : Int) - -2).tdiv 1 = 5 := by decide
    simp only [this] at hi
    omega
  refine ⟨toneLoaded 5, ⟨by decide, rfl, by decide, by decide, by decide⟩,
    ⟨by decide, by decide, by decide, fun i hi => ?_⟩, fun i hi => ?_,
    ⟨⟨?_⟩, by decide, by decide, by norm_num, ?_, ?_⟩, ?_, by decide, ?_, ?_, ?_, ?_⟩
  · have := hrange i hi
    interval_cases i <;> decide
  · have := hrange i hi
    interval_cases i <;> decide
  · intro t ht
    interval_cases t <;> norm_num
  · intro t ht
    interval_cases t <;> norm_num [toneChan]
  · intro t ht c _ _ hne
    unfold toneChan
    rw [if_neg hne]
    split_ifs <;> norm_num
  · intro t ht c hc
    dsimp only at hc
    rw [abs_le] at hc
    have h1 : 3 ≤ c := by omega
    have h2 : c ≤ 9 := by omega
    interval_cases c <;> decide +kernel
  all_goals decide +kernel

end Bliss.Hit
