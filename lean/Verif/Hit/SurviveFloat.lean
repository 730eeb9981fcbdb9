import Verif.Hit.Local
import Verif.Hit.SingleTone

/-!
# A tone is reported by the whole chain, in float arithmetic (C147, C148)

The sums along the lines, the noise floor, the SNR and the threshold are floats here: every addition,
subtraction, division and conversion from an integer rounds to 24 significant bits, in any rounding mode.
-/

namespace Bliss.Hit

open Bliss.Drift Bliss.Comp Bliss.Float Bliss.Nd Bliss.Stat Bliss.Flag

/-! ## Specification -/

/-- A tone over a background, in the channels from `lo` to `hi`: it starts in channel `c₀`, drifts by `d`
channels and has a power from `p` to `2 p`; every other sample in these channels is at most `b`, half the
power of the tone or less. No sample is negative. -/
structure Tone32 {R : Rounding 24} (T N : Nat) (X : Nat → Int → F32 R) (c₀ d : Int) (ch : Nat → Int)
    (p b : ℚ) (lo hi : Int) : Prop where
  line : ToneLine T c₀ d ch
  start : 0 ≤ c₀ ∧ c₀ < N
  stop : 0 ≤ c₀ + d ∧ c₀ + d < N
  level : 0 < p ∧ 0 ≤ b ∧ b ≤ p / 2
  tone : ∀ t < T, p ≤ (X t (ch t)).val ∧ (X t (ch t)).val ≤ 2 * p
  rest : ∀ t < T, ∀ c : Int, 0 ≤ c → c < N → lo ≤ c → c < hi → c ≠ ch t → (X t c).val ≤ b
  pos : ∀ t < T, ∀ c : Int, 0 ≤ c → c < N → 0 ≤ (X t c).val

/-! ## Proof -/

section
variable {F : Type} [Zero F] [Add F] [Sub F] [Div F] [IntCast F] [LT F] [DecidableLT F] [OfNat F 2]

/-- Every hit has the flags of a line above the threshold. -/
theorem hit_flags_line (R24 : Rounding 24) (R53 : Rounding 53) (hz : Fl → Fl)
    (ar : Arith F Fl) (fltMin : F) (junk : Coord → Int) (cc : Channel Fl) {inp : Input F}
    {grid : Nat → Int → F} {mask : Nat → Int → UInt8} (hin : Holds inp grid mask)
    (hview : inp.specOffset = 0 ∧ inp.rfiOffset = 0) {ro : RateOptions}
    (hdef : Defined ro inp.timeSteps inp.numChannels)
    (hplain : ro.desmear = false ∨ ∀ i : Nat, (i : Int) < (ro.high - ro.low).tdiv ro.step →
      |ro.low + i * ro.step| ≤ (inp.timeSteps : Int) - 1)
    (noisePower floor : F) (o : Options F) (hm : o.method = .connectedComponents)
    (hsane : Sane fltMin o.thr) {hs : List (Hit F Fl)}
    (hrun : driftSearch R24 R53 hz ar fltMin junk cc inp ro noisePower floor o = .ok hs) :
    ∃ off, Straight inp.timeSteps ro off ∧ ∀ h ∈ hs, ∃ (i : Nat) (c : Int),
      Cell inp.numChannels ro ((i : Int), c) ∧
      o.thr < lineSnr ar grid inp.numChannels inp.timeSteps ro off noisePower floor ((i : Int), c) ∧
      let line := path inp.numChannels inp.timeSteps (decide (0 ≤ ro.low + i * ro.step))
          (ro.low + i * ro.step) 1 (off i) c
      h.rfi.lookup 2 = some (pathFlags mask 2 line % 256) ∧
      h.rfi.lookup 1 = some (pathFlags mask 1 line % 256) := by
  obtain ⟨a, rates, off, h1, h2, h3⟩ := C07_defined_partial R24 R53 hz hin hview hdef.steps.1
    hdef.steps.2 hdef.step hdef.some hdef.range
  obtain ⟨cs, hs', e1, e2, e3, _⟩ := hitSearch_covers ar fltMin junk cc (planeOf inp a rates)
    noisePower floor o hm hsane.trans hsane.irrefl (by simp [planeOf]) hsane.half hsane.normal
  have hrun' : driftSearch R24 R53 hz ar fltMin junk cc inp ro noisePower floor o = .ok hs' := by
    simp only [driftSearch, h1, Outcome.bind_ok]; exact e2
  rw [hrun] at hrun'
  obtain rfl := Outcome.ok.inj hrun'
  refine ⟨off, ?_, ?_⟩
  · intro i hi
    have hget := List.getElem?_eq_getElem (show i < rates.length by omega)
    obtain ⟨_, g2, _, g4, _⟩ := h3 i _ hget
    rw [← g2]; exact g4
  intro h hh
  obtain ⟨j, hj, rfl⟩ := List.getElem_of_mem hh
  have hlen := e3.length_eq
  have hjc : j < cs.length := by omega
  have hd : Describes ar cc (planeOf inp a rates) noisePower floor o.thr cs[j] hs[j] :=
    (List.forall₂_iff_get.1 e3).2 j hjc hj
  obtain ⟨x, rest, x1, x2, x3, _⟩ := Comp.C16_counts_at_first_cell_partial _ fltMin hsane.half
    hsane.normal e1 (List.getElem_mem hjc)
  obtain ⟨cs', f1, _, f3, _⟩ :=
    Comp.C12_clusters_disjoint_complete_partial
      (toSearch ar (planeOf inp a rates) noisePower floor o) fltMin
  rw [e1] at f1
  obtain rfl := Outcome.ok.inj f1
  obtain ⟨hx, _⟩ := f3 _ (List.getElem_mem hjc) x (by rw [x1]; exact List.mem_cons_self)
  obtain ⟨xi, c⟩ := x
  obtain ⟨y1, y2, y3, y4⟩ := hx
  simp only [toSearch, planeOf] at y1 y2 y3 y4
  obtain ⟨i, rfl⟩ : ∃ i : Nat, xi = i := ⟨xi.toNat, (Int.toNat_of_nonneg y1).symm⟩
  have hil : i < rates.length := by exact_mod_cast y2
  have hget := List.getElem?_eq_getElem hil
  obtain ⟨_, g2, g3, g4, g5⟩ := h3 i _ hget
  obtain ⟨p1, l, hi, ro', q1, q2, q3, q4, q5, q6⟩ := g5 c y3 y4
  have hil' : (i : Int) < (ro.high - ro.low).tdiv ro.step := by omega
  have hrg := hdef.range i hil'
  have hdes : rates[i].desmear = 1 := by
    refine (rates_plain h1 hdef.steps.1 hdef.steps.2 hget (by omega)).2 ?_
    rcases hplain with h | h
    · exact Or.inl h
    · exact Or.inr (h i hil')
  refine ⟨i, c, ⟨y1, hil', y3, y4⟩, ?_⟩
  rw [hdes] at p1
  have hcell := snr_cell (ar := ar) (noisePower := noisePower) (floor := floor) (o := o) hget p1
  rw [hdes, mul_one, show (1 : Int).toNat = 1 from rfl, g2] at hcell
  rw [hcell] at x2
  refine ⟨x2, ?_⟩
  have hc := hd.counts _ _ _ x3
  simp only [q1, q2, q3, Option.getD_some] at hc
  rw [q4, q5, q6, g2, hdes] at hc
  exact ⟨hc.1, hc.2.2⟩

end

variable {D : Type} {R24 : Rounding 24}

theorem F32.sane {fltMin thr : F32 R24} (hmin : 0 ≤ fltMin.val) (hthr : fltMin.val ≤ thr.val) :
    Sane fltMin thr where
  trans := fun a b c h1 h2 => lt_trans (a := a.val) (b := b.val) (c := c.val) h1 h2
  irrefl := fun a => lt_irrefl a.val
  half := F32.half_lt (hmin.trans hthr)
  normal := fun v hv => lt_of_le_of_lt (b := thr.val) (c := v.val) hthr hv

theorem Tone32.prominent {T N : Nat} {X : Nat → Int → F32 R24} {c₀ d : Int} {ch : Nat → Int} {p b : ℚ}
    (h : Tone32 T N X c₀ d ch p b 0 N) : Prominent N T (fun t c => (X t c).val) ch p :=
  ⟨h.tone, fun t ht c h0 hc hne => ⟨h.pos t ht c h0 hc, (h.rest t ht c h0 hc h0 hc hne).trans h.level.2.2⟩⟩

/-- The tone of `tone_clear`, in float arithmetic. -/
theorem tone_clear_float (R53 : Rounding 53) (hz : Fl → Fl) (ar : Arith (F32 R24) Fl)
    (fltMin : F32 R24) (junk : Coord → Int) (cc : Channel Fl) (ro : RateOptions)
    (op : Options (F32 R24)) (tiny : Fl → Bool) (zeroDrift : Bool)
    (T N : Nat) (X : Nat → Int → F32 R24) (Q : Nat → Int → UInt8) (hd : Defined ro T N) (hT' : T ≤ 512)
    (hplain : ro.desmear = false ∨ ∀ i : Nat, (i : Int) < (ro.high - ro.low).tdiv ro.step →
      |ro.low + i * ro.step| ≤ (T : Int) - 1)
    {S : Int} (hS : ∀ i : Nat, (i : Int) < (ro.high - ro.low).tdiv ro.step →
      |ro.low + i * ro.step| ≤ S)
    (hm : op.method = .connectedComponents) (hmin : 0 ≤ fltMin.val) (hthr : fltMin.val ≤ op.thr.val)
    {c₀ d : Int} {i₀ : Nat} (hi₀ : (i₀ : Int) < (ro.high - ro.low).tdiv ro.step)
    (hd₀ : d = ro.low + i₀ * ro.step) {ch : Nat → Int} {p b : ℚ} (htone : Tone32 T N X c₀ d ch p b 0 N)
    (haway : ∀ t < T, ∀ c : Int, |c - ch t| ≤ S → ∀ t' < T, Q t' c &&& 1 = 0 ∧ Q t' c &&& 2 = 0)
    (hrate : zeroDrift = true → tiny (hz (.fin (R24.r ((d : ℚ) / ((T : ℚ) - 1))))) = false)
    (power floor : F32 R24) :
    let noise := (driftNoise ar power T).val
    let snr := ((∑ t ∈ Finset.range T, (X t (ch t)).val) / T - floor.val) / noise
    0 < noise → 0 ≤ floor.val ∧ floor.val ≤ p / 2 → op.thr.val * (1 + 1 / 512) < snr →
    b * (1 + 1 / 4096) ≤ fullLevel floor.val op.thr.val noise →
    ∃ (hs : List (Hit (F32 R24) Fl)) (hit : Hit (F32 R24) Fl),
      driftSearch R24 R53 hz ar fltMin junk cc (denseInput T N X Q) ro power floor op = .ok hs ∧
      hit ∈ hs ∧ hit.startFreqIndex = c₀ ∧ hit.rateIndex = i₀ ∧
      hit.driftRate = hz (.fin (R24.r ((d : ℚ) / ((T : ℚ) - 1)))) ∧
      |hit.snr.val - snr| ≤ snr / 1024 ∧
      (∀ hit' ∈ hs, hit'.snr.val ≤ hit.snr.val) ∧ Acceptable tiny zeroDrift hit := by
  intro noise snr hnoise hfloor habove hback
  have hin := denseInput_holds T N X Q
  have hthr0 := hmin.trans hthr
  obtain ⟨hs, hit, e1, e2, e3, e4, e5, e6, e7, -⟩ := C87_tone_recovered_float_partial R24 R53 hz ar fltMin
    junk cc hin ⟨rfl, rfl⟩ (ro := ro) hd.steps.1 hT' hd.step hd.range hplain hi₀ hd₀ htone.start
    htone.stop htone.line htone.level.1 htone.prominent power floor hfloor op hm hnoise hmin hthr rfl habove
  obtain ⟨off, hoff, hflags⟩ := hit_flags_line R24 R53 hz ar fltMin junk cc hin ⟨rfl, rfl⟩ (ro := ro) hd
    hplain power floor op hm (F32.sane hmin hthr) e1
  obtain ⟨i, c, hcell, habv, hf2, hf1⟩ := hflags hit e2
  have hmeet : ∃ t < T, c + off i t = ch t := by
    by_contra hno
    push Not at hno
    rw [F32.lt_val] at habv
    refine absurd habv (not_lt.mpr ?_)
    exact missing_line ar hoff hd.steps.1 hT' htone.pos (ch := ch) hthr0
      (fun t ht y h0 hy hne => (mul_le_mul_of_nonneg_right (htone.rest t ht y h0 hy h0 hy hne)
        (by norm_num)).trans hback) hfloor.1 hnoise hcell (fun t ht => by simpa using hno t ht)
  obtain ⟨t₁, ht₁, hm₁⟩ := hmeet
  obtain ⟨-, i1, c1, c2⟩ := hcell
  have hstr := hoff i i1
  have hclear : ∀ s ∈ path N T (decide (0 ≤ ro.low + i * ro.step)) (ro.low + i * ro.step) 1 (off i) c,
      Q s.1 s.2 &&& 1 = 0 ∧ Q s.1 s.2 &&& 2 = 0 := by
    intro s hsm
    obtain ⟨s1, s2⟩ := mem_path_plain hsm
    obtain ⟨y1, -, -⟩ := pathChannel_inside hstr s1 c1 c2 s2
    refine haway t₁ ht₁ s.2 ?_ s.1 s1
    have a1 := hstr.inside s.1 s1
    have a2 := hstr.inside t₁ ht₁
    have a3 := hS i i1
    rw [← hm₁, y1]
    rw [abs_le] at a3 ⊢
    have b3 : max 0 (ro.low + i * ro.step) - min 0 (ro.low + i * ro.step) ≤ S := by
      rcases le_total 0 (ro.low + i * ro.step) with h0 | h0
      · rw [max_eq_right h0, min_eq_left h0]; omega
      · rw [max_eq_left h0, min_eq_right h0]; omega
    constructor <;> omega
  have hzero : ∀ f : UInt8, (f = 1 ∨ f = 2) → pathFlags Q f
        (path N T (decide (0 ≤ ro.low + i * ro.step)) (ro.low + i * ro.step) 1 (off i) c) = 0 := by
    intro f hf
    unfold pathFlags
    rw [List.countP_eq_zero]
    intro s hsm
    have := hclear s hsm
    rcases hf with rfl | rfl
    · simpa using this.1
    · simpa using this.2
  have z1 := hzero 1 (Or.inl rfl)
  have z2 := hzero 2 (Or.inr rfl)
  have hacc : Acceptable tiny zeroDrift hit := by
    refine ⟨?_, ?_, ?_⟩
    · exact (congrArg (fun x => Option.getD x 0) hf1).trans (congrArg (· % 256) z1)
    · exact (congrArg (fun x => Option.getD x 0) hf2).trans (congrArg (· % 256) z2)
    · rintro ⟨w1, w2⟩
      rw [e5] at w2
      have := hrate w1
      rw [show (denseInput T N X Q).timeSteps = T from rfl, this] at w2
      cases w2
  exact ⟨hs, hit, e1, e2, e3, e4, e5, e6, fun hit' hh => (e7 hit' hh).1, hacc⟩

/-- **C147, in float arithmetic.** The channel, the steps and the conclusion of
`C147_tone_survives_partial`, with every float operation on the drift lines and the SNR rounded in any
mode, and any arithmetic for kurtosis, mean and deviation. At most 512 time steps; the tone is at least
twice as strong as the background level `b` and varies by at most a factor of two; the measured noise
floor is at most half the tone; the tone's SNR exceeds the threshold by `1/512` of it, and the background
is below it by `1/4096`. The SNR reported is the tone's up to `1/1024` of it.

Missing: desmeared drifts, overflow and underflow. -/
theorem C147_tone_survives_float_partial (R53 : Rounding 53) (hz : Fl → Fl)
    (ar : Arith (F32 R24) Fl)
    (fltMin : F32 R24) (junk : Coord → Int) (cc : Channel Fl) (width : Int → Int) (so : SkOps (F32 R24))
    (lt gt : F32 R24 → Bool) (nsk : Int) (dSk : F32 R24) (o : StatOps (F32 R24) D) (ro : RateOptions)
    (op : Options (F32 R24)) (tiny : Fl → Bool) (zeroDrift : Bool)
    (j : Nat → Nat → Int → Val (F32 R24)) (h : Heap (Val (F32 R24)))
    (T N : Nat) (X : Nat → Int → F32 R24) (k : Int) (bd bm : Nat) (hr : FlagRange width nsk T N k)
    (hload : Loaded h T N X bd bm) (hd : Defined ro T N) (hT' : T ≤ 512)
    (hplain : ro.desmear = false ∨ ∀ i : Nat, (i : Int) < (ro.high - ro.low).tdiv ro.step →
      |ro.low + i * ro.step| ≤ (T : Int) - 1)
    {S : Int} (hS : ∀ i : Nat, (i : Int) < (ro.high - ro.low).tdiv ro.step →
      |ro.low + i * ro.step| ≤ S)
    (hm : op.method = .connectedComponents) (hmin : 0 ≤ fltMin.val) (hthr : fltMin.val ≤ op.thr.val)
    {c₀ d : Int} {i₀ : Nat} (hi₀ : (i₀ : Int) < (ro.high - ro.low).tdiv ro.step)
    (hd₀ : d = ro.low + i₀ * ro.step) {ch : Nat → Int} {p b : ℚ} (htone : Tone32 T N X c₀ d ch p b 0 N)
    (haway : Away so lt nsk dSk k T N X ch S)
    (hrate : zeroDrift = true → tiny (hz (.fin (R24.r ((d : ℚ) / ((T : ℚ) - 1))))) = false)
    (hsome : clean T N (flagsOf so lt gt nsk dSk k T N X) ≠ []) :
    let l := clean T N (flagsOf so lt gt nsk dSk k T N X)
    let floor := (floorOf o X l).val
    let noise := (driftNoise ar (powerOf o X l) T).val
    let snr := ((∑ t ∈ Finset.range T, (X t (ch t)).val) / T - floor) / noise
    0 < noise → 0 ≤ floor ∧ floor ≤ p / 2 → op.thr.val * (1 + 1 / 512) < snr →
    b * (1 + 1 / 4096) ≤ fullLevel floor op.thr.val noise →
    ∃ (hits : List (Hit (F32 R24) Fl)) (hit : Hit (F32 R24) Fl),
      searchFlagged R24 R53 hz ar fltMin junk cc width so lt gt nsk dSk o ro op tiny zeroDrift
        (dense bd [(T : Int), (N : Int)]) (dense bm [(T : Int), (N : Int)]) j h = .ok hits ∧
      hit ∈ hits ∧ hit.startFreqIndex = c₀ ∧ hit.rateIndex = i₀ ∧
      hit.driftRate = hz (.fin (R24.r ((d : ℚ) / ((T : ℚ) - 1)))) ∧
      |hit.snr.val - snr| ≤ snr / 1024 ∧
      ∀ hit' ∈ hits, hit'.snr.val ≤ hit.snr.val := by
  intro l floor noise snr hnoise hfloor habove hback
  obtain ⟨hs, hit, e1, e2, e3, e4, e5, e6, e7, hacc⟩ := tone_clear_float R53 hz ar fltMin junk cc ro op tiny
    zeroDrift T N X (flagsOf so lt gt nsk dSk k T N X) hd hT' hplain hS hm hmin hthr hi₀ hd₀ htone
    (fun t ht e he t' _ => by
      obtain ⟨v1, v2, v3⟩ := haway t ht e he
      exact flags_clear so lt gt nsk dSk k T N X t' v1 v2 v3)
    hrate (powerOf o X l) (floorOf o X l) hnoise hfloor habove hback
  have hrun := (C117_search R24 R53 hz ar fltMin junk cc width so lt gt nsk dSk o ro op tiny
    zeroDrift j h T N X k bd bm hr hload).2 hs hsome e1
  have hsort := driftSearch_sorted e1
  refine ⟨_, touched hit, hrun, ?_, e3, e4, e5, e6, ?_⟩
  · rw [filterHits_eq tiny zeroDrift hs hsort]
    exact List.mem_map.mpr ⟨hit, List.mem_filter.mpr ⟨e2, by simpa using hacc⟩, rfl⟩
  · intro hit' hh'
    rw [filterHits_eq tiny zeroDrift hs hsort] at hh'
    obtain ⟨g, hg, rfl⟩ := List.mem_map.mp hh'
    exact e7 g (List.mem_filter.mp hg).1

/-- Lines through samples below a level are quiet. -/
theorem QuietLines.of_level_float (R53 : Rounding 53) {ar : Arith (F32 R24) Fl}
    {noisePower floor thr : F32 R24} {b : ℚ}
    {T N : Nat} {ro : RateOptions} (hd : Defined ro T N) (hT' : T ≤ 512)
    (hplain : ro.desmear = false ∨ ∀ i : Nat, (i : Int) < (ro.high - ro.low).tdiv ro.step →
      |ro.low + i * ro.step| ≤ (T : Int) - 1)
    {X : Nat → Int → F32 R24} {lo hi S : Int}
    (hS : ∀ i : Nat, (i : Int) < (ro.high - ro.low).tdiv ro.step → |ro.low + i * ro.step| ≤ S)
    (hb : 0 ≤ b) (hpos : ∀ t < T, ∀ c : Int, 0 ≤ c → c < N → 0 ≤ (X t c).val)
    (hX : ∀ t < T, ∀ c : Int, 0 ≤ c → c < N → lo - 2 * S ≤ c → c < hi + 2 * S → (X t c).val ≤ b)
    (hthr : 0 ≤ thr.val) (hn : 0 < (driftNoise ar noisePower T).val)
    (hlevel : b * (1 + 1 / 4096) ≤
      fullLevel floor.val (thr / 2).val (driftNoise ar noisePower T).val) :
    QuietLines ar noisePower floor thr T N ro X lo hi := by
  intro i hi' c c1 c2 c3 c4 w off w1 w2 w3 hstr
  obtain rfl : w = 1 := w3 (by
    rcases hplain with h | h
    · exact Or.inl h
    · exact Or.inr (h i hi'))
  have hex : ∀ n : Nat, ∃ f : Nat → Int, (n : Int) < (ro.high - ro.low).tdiv ro.step →
      StraightPath (ro.low + n * ro.step) T (2 ^ (-23 : ℤ) + 2 ^ (-51 : ℤ)) f := by
    intro n
    by_cases hn : (n : Int) < (ro.high - ro.low).tdiv ro.step
    · obtain ⟨f, -, hf⟩ := C06_path_geometry_partial R24 R53 (hd.range n hn).1 hd.steps.1 hd.steps.2
      exact ⟨f, fun _ => hf⟩
    · exact ⟨fun _ => 0, fun h => absurd h hn⟩
  choose f hf using hex
  have hoff : Straight T ro (Function.update f i off) := by
    intro n hn
    by_cases e : n = i
    · subst e; rw [Function.update_self]; exact hstr
    · rw [Function.update_of_ne e]; exact hf n hn
  rw [mul_one]
  have hcell : Cell N ro ((i : Int), c) := ⟨by simp, hi', c1, c2⟩
  have hlow := low_line ar hoff hd.steps.1 hT' hpos hn hcell (thr := (thr / 2).val) (floor := floor) (by
      rw [F32.div_val]
      exact R24.nonneg (div_nonneg hthr (by change (0 : ℚ) ≤ 2; norm_num))) (by
    refine mean_le (by have := hd.steps.1; omega) (b := b) (fun t ht => ?_) hlevel
    unfold contribution
    dsimp only
    rw [Int.toNat_natCast, Function.update_self]
    split
    · rename_i z hz
      obtain ⟨y1, y2, y3⟩ := pathChannel_inside hstr ht c1 c2 hz
      have a1 := hstr.inside t ht
      have a3 := hS i hi'
      rw [abs_le] at a3
      refine hX t ht z y2 y3 ?_ ?_
      · rcases le_total 0 (ro.low + i * ro.step) with h0 | h0
        · rw [max_eq_right h0, min_eq_left h0] at a1; omega
        · rw [max_eq_left h0, min_eq_right h0] at a1; omega
      · rcases le_total 0 (ro.low + i * ro.step) with h0 | h0
        · rw [max_eq_right h0, min_eq_left h0] at a1; omega
        · rw [max_eq_left h0, min_eq_right h0] at a1; omega
    · exact hb)
  rw [F32.lt_val]
  refine not_lt.mpr ?_
  unfold lineSnr at hlow
  dsimp only at hlow
  rw [Int.toNat_natCast, Function.update_self] at hlow
  exact hlow

/-- **C148, with C147, in float arithmetic.** The tone of `C147_tone_survives_float_partial` in a channel
with any other signals, also stronger ones, where they are as in `C148_tone_among_others_partial`: it is
reported, and it is the strongest hit in its channels.

Missing: desmeared drifts, overflow and underflow. -/
theorem C148_tone_among_others_float_partial (R53 : Rounding 53) (hz : Fl → Fl)
    (ar : Arith (F32 R24) Fl)
    (fltMin : F32 R24) (junk : Coord → Int) (cc : Channel Fl) (width : Int → Int) (so : SkOps (F32 R24))
    (lt gt : F32 R24 → Bool) (nsk : Int) (dSk : F32 R24) (o : StatOps (F32 R24) D) (ro : RateOptions)
    (op : Options (F32 R24)) (tiny : Fl → Bool) (zeroDrift : Bool)
    (j : Nat → Nat → Int → Val (F32 R24)) (h : Heap (Val (F32 R24)))
    (T N : Nat) (X : Nat → Int → F32 R24) (k : Int) (bd bm : Nat) (hr : FlagRange width nsk T N k)
    (hload : Loaded h T N X bd bm) (hd : Defined ro T N) (hT' : T ≤ 512)
    (hplain : ro.desmear = false ∨ ∀ i : Nat, (i : Int) < (ro.high - ro.low).tdiv ro.step →
      |ro.low + i * ro.step| ≤ (T : Int) - 1)
    {S : Int} (hS : ∀ i : Nat, (i : Int) < (ro.high - ro.low).tdiv ro.step →
      |ro.low + i * ro.step| ≤ S)
    (hm : op.method = .connectedComponents) (hdist : 0 ≤ op.dist) (hmin : 0 ≤ fltMin.val)
    (hthr : fltMin.val ≤ op.thr.val)
    {c₀ d : Int} {i₀ : Nat} (hi₀ : (i₀ : Int) < (ro.high - ro.low).tdiv ro.step)
    (hd₀ : d = ro.low + i₀ * ro.step) {ch : Nat → Int} {p b : ℚ} {a e : Int}
    (htone : Tone32 T N X c₀ d ch p b (a - (2 * S + op.dist)) (e + (2 * S + op.dist)))
    (hwhere : ∀ t < T, a + 2 * S ≤ ch t ∧ ch t < e - 2 * S)
    (haway : Away so lt nsk dSk k T N X ch S)
    (hrate : zeroDrift = true → tiny (hz (.fin (R24.r ((d : ℚ) / ((T : ℚ) - 1))))) = false)
    (hsome : clean T N (flagsOf so lt gt nsk dSk k T N X) ≠ []) :
    let l := clean T N (flagsOf so lt gt nsk dSk k T N X)
    let floor := (floorOf o X l).val
    let noise := (driftNoise ar (powerOf o X l) T).val
    let snr := ((∑ t ∈ Finset.range T, (X t (ch t)).val) / T - floor) / noise
    0 < noise → 0 ≤ floor ∧ floor ≤ p / 2 → op.thr.val * (1 + 1 / 512) < snr →
    b * (1 + 1 / 4096) ≤ fullLevel floor (op.thr / 2).val noise →
    ∃ (hits : List (Hit (F32 R24) Fl)) (hit : Hit (F32 R24) Fl),
      searchFlagged R24 R53 hz ar fltMin junk cc width so lt gt nsk dSk o ro op tiny zeroDrift
        (dense bd [(T : Int), (N : Int)]) (dense bm [(T : Int), (N : Int)]) j h = .ok hits ∧
      hit ∈ hits ∧ hit.startFreqIndex = c₀ ∧ hit.rateIndex = i₀ ∧
      hit.driftRate = hz (.fin (R24.r ((d : ℚ) / ((T : ℚ) - 1)))) ∧
      |hit.snr.val - snr| ≤ snr / 1024 ∧
      ∀ hit' ∈ hits, a ≤ hit'.startFreqIndex → hit'.startFreqIndex < e → hit'.snr.val ≤ hit.snr.val := by
  intro l floor noise snr hnoise hfloor habove hback
  set Q := flagsOf so lt gt nsk dSk k T N X with hQ
  have hT : 0 < T := by have := hd.steps.1; omega
  have hS0 : 0 ≤ S := (abs_nonneg _).trans (hS i₀ hi₀)
  have hthr0 : 0 ≤ op.thr.val := hmin.trans hthr
  let G := 2 * S + op.dist
  let Y : Nat → Int → F32 R24 := fun t c => if a - G ≤ c ∧ c < e + G then X t c else 0
  have hYch : ∀ t < T, Y t (ch t) = X t (ch t) := fun t ht => if_pos (by
    have := hwhere t ht
    show a - (2 * S + op.dist) ≤ ch t ∧ ch t < e + (2 * S + op.dist)
    omega)
  have hYpos : ∀ t < T, ∀ c : Int, 0 ≤ c → c < N → 0 ≤ (Y t c).val := by
    intro t ht c h0 hc
    show 0 ≤ (if a - G ≤ c ∧ c < e + G then X t c else 0).val
    split
    · exact htone.pos t ht c h0 hc
    · exact le_rfl
  have htoneY : Tone32 T N Y c₀ d ch p b 0 N := by
    refine ⟨htone.line, htone.start, htone.stop, htone.level, fun t ht => ?_,
      fun t ht c h0 hc _ _ hne => ?_, hYpos⟩
    · rw [hYch t ht]; exact htone.tone t ht
    · show (if a - G ≤ c ∧ c < e + G then X t c else 0).val ≤ b
      split
      · next hin => exact htone.rest t ht c h0 hc hin.1 hin.2 hne
      · exact htone.level.2.1
  have hsum : ∑ t ∈ Finset.range T, (Y t (ch t)).val = ∑ t ∈ Finset.range T, (X t (ch t)).val :=
    Finset.sum_congr rfl fun t ht => by rw [hYch t (Finset.mem_range.mp ht)]
  have hhalf : (op.thr / 2).val ≤ op.thr.val := by
    rw [F32.div_val]
    change R24.r (op.thr.val / 2) ≤ op.thr.val
    have h := relErr24 R24 (op.thr.val / 2)
    rw [abs_of_nonneg (a := op.thr.val / 2) (by linarith), abs_le] at h
    norm_num at h
    linarith [h.2]
  have hlev : fullLevel floor (op.thr / 2).val noise ≤ fullLevel floor op.thr.val noise := by
    unfold fullLevel
    have := mul_le_mul_of_nonneg_right hhalf hnoise.le
    linarith
  obtain ⟨hs', hit, e1, e2, e3, e4, e5, e6, e7, hacc⟩ := tone_clear_float R53 hz ar fltMin junk cc ro op
    tiny zeroDrift T N Y Q hd hT' hplain hS hm hmin hthr hi₀ hd₀ htoneY
    (fun t ht x hx t' _ => by
      obtain ⟨v1, v2, v3⟩ := haway t ht x hx
      exact flags_clear so lt gt nsk dSk k T N X t' v1 v2 v3)
    hrate (powerOf o X l) (floorOf o X l) hnoise hfloor (by rw [hsum]; exact habove) (hback.trans hlev)
  rw [hsum] at e6
  have hbg : ∀ t < T, ∀ c : Int, 0 ≤ c → c < N → a - G ≤ c → c < e + G →
      (c < a + 2 * S ∨ e - 2 * S ≤ c) → (X t c).val ≤ b ∧ (Y t c).val ≤ b := by
    intro t ht c h0 hc g1 g2 hout
    have hx : (X t c).val ≤ b := htone.rest t ht c h0 hc g1 g2 (by
      have := hwhere t ht
      rintro rfl
      omega)
    refine ⟨hx, ?_⟩
    show (if a - G ≤ c ∧ c < e + G then X t c else 0).val ≤ b
    rw [if_pos ⟨g1, g2⟩]; exact hx
  have hae : a ≤ e := by
    have := hwhere 0 hT
    omega
  obtain ⟨hs, hs'', f1, f2, f3⟩ := C148_hits_local R24 R53 hz ar fltMin junk cc
    (denseInput_holds T N X Q) (denseInput_holds T N Y Q) ⟨rfl, rfl⟩ ⟨rfl, rfl⟩ (T := T) (N := N)
    ⟨rfl, rfl⟩ ⟨rfl, rfl⟩ hd (powerOf o X l) (floorOf o X l) op hm (F32.sane hmin hthr) hS (a := a) (b := e)
    (fun t ht c h1 h2 => ⟨(if_pos (by
      show a - (2 * S + op.dist) ≤ c ∧ c < e + (2 * S + op.dist)
      omega)).symm, rfl⟩)
    (by
      intro Z hZ
      have hZpos : ∀ t < T, ∀ c : Int, 0 ≤ c → c < N → 0 ≤ (Z t c).val := by
        rcases hZ with rfl | rfl
        · exact htone.pos
        · exact hYpos
      refine ⟨QuietLines.of_level_float R53 hd hT' hplain hS htone.level.2.1 hZpos ?_ hthr0 hnoise hback,
        QuietLines.of_level_float R53 hd hT' hplain hS htone.level.2.1 hZpos ?_ hthr0 hnoise hback⟩
      · intro t ht c h0 hc g1 g2
        have := hbg t ht c h0 hc (by show a - (2 * S + op.dist) ≤ c; omega)
          (by show c < e + (2 * S + op.dist); omega) (by omega)
        rcases hZ with rfl | rfl
        · exact this.1
        · exact this.2
      · intro t ht c h0 hc g1 g2
        have := hbg t ht c h0 hc (by show a - (2 * S + op.dist) ≤ c; omega)
          (by show c < e + (2 * S + op.dist); omega) (by omega)
        rcases hZ with rfl | rfl
        · exact this.1
        · exact this.2)
  rw [e1] at f2
  obtain rfl := Outcome.ok.inj f2
  have hin0 : a ≤ c₀ ∧ c₀ < e := by
    obtain ⟨off, ho1, ho2⟩ := C06_path_geometry_partial R24 R53 (hd₀ ▸ (hd.range i₀ hi₀).1) hd.steps.1
      hd.steps.2
    have h1 := tone_offsets htone.line ho2 0 hT
    rw [ho2.start, add_zero] at h1
    have := hwhere 0 hT
    omega
  have hmem : hit ∈ hs := by
    have : hit ∈ hs'.filter (fun h => decide (a ≤ h.startFreqIndex ∧ h.startFreqIndex < e)) :=
      List.mem_filter.mpr ⟨e2, by rw [e3]; simpa using hin0⟩
    rw [← f3] at this
    exact (List.mem_filter.mp this).1
  have hrun := (C117_search R24 R53 hz ar fltMin junk cc width so lt gt nsk dSk o ro op tiny
    zeroDrift j h T N X k bd bm hr hload).2 hs hsome f1
  have hsort := driftSearch_sorted f1
  refine ⟨_, touched hit, hrun, ?_, e3, e4, e5, e6, ?_⟩
  · rw [filterHits_eq tiny zeroDrift hs hsort]
    exact List.mem_map.mpr ⟨hit, List.mem_filter.mpr ⟨hmem, by simpa using hacc⟩, rfl⟩
  · intro hit' hh' g1 g2
    rw [filterHits_eq tiny zeroDrift hs hsort] at hh'
    obtain ⟨g, hg, rfl⟩ := List.mem_map.mp hh'
    have hg' := (List.mem_filter.mp hg).1
    have : g ∈ hs.filter (fun h => decide (a ≤ h.startFreqIndex ∧ h.startFreqIndex < e)) :=
      List.mem_filter.mpr ⟨hg', decide_eq_true (show a ≤ g.startFreqIndex ∧ g.startFreqIndex < e from ⟨g1, g2⟩)⟩
    rw [f3] at this
    exact e7 g (List.mem_filter.mp this).1

/-! ## Channels -/

/-- Rounding to nearest even, as the float operations of the examples do. -/
def ne24 : Rounding 24 := nearestEven 24 (by norm_num)

/-- Double arithmetic with floats. -/
def ratArith32 : Arith (F32 ne24) Fl where
  toD := fun x => .fin x.val
  toF := fun x => match x with | .fin x => ⟨rne 24 x⟩ | _ => ⟨0⟩
  ofInt := ratArith.ofInt
  add := ratArith.add
  mul := ratArith.mul
  div := ratArith.div
  abs := ratArith.abs
  sqrt := ratArith.sqrt
  million := ratArith.million

def sk32 : SkOps (F32 ne24) :=
  ⟨(· + ·), fun x y => ⟨rne 24 (x.val * y.val)⟩, (· / ·), (· - ·), fun i => ⟨rne 24 i⟩, 0⟩

def stat32 : StatOps (F32 ne24) ℚ where
  toD := F32.val
  toV := fun x => ⟨rne 24 x⟩
  zero := 0
  add := (ieeeOps binSqrt).add
  sub := (ieeeOps binSqrt).sub
  mul := (ieeeOps binSqrt).mul
  div := (ieeeOps binSqrt).div
  ofInt := (ieeeOps binSqrt).ofInt
  sqrt := (ieeeOps binSqrt).sqrt
  clip := (ieeeOps binSqrt).clip
  zeroV := 0
  addV := (· + ·)
  gtV := fun x y => decide (y < x)
  lowest := ⟨-(2 ^ 128)⟩

def lowSk32 (x : F32 ne24) : Bool := decide (x.val < 1 / 20)
def highSk32 (x : F32 ne24) : Bool := decide (5 < x.val)

/-- The memory of a channel of `3` time steps and `N` channels without flags. -/
def mem32 (N : Nat) (X : Nat → Int → ℚ) : Heap (Val (F32 ne24)) where
  mem b i := if 0 ≤ i ∧ i < 3 * N then
      (if b = 0 then some (.num ⟨X (i / N).toNat (i % N)⟩) else if b = 1 then some (.flag 0) else none)
    else none
  next := 2

theorem loaded32 (N : Nat) (X : Nat → Int → ℚ) :
    Loaded (mem32 N X) 3 N (fun t c => ⟨X t c⟩) 0 1 where
  apart := by decide
  dataIn := Nat.zero_lt_two
  maskIn := Nat.one_lt_two
  data := by
    intro i hi
    obtain ⟨t, ch, rfl, h1, h2, h3, h4⟩ := valid2 hi
    have e : addr (dense 0 [((3 : Nat) : Int), (N : Int)]).dims [t, ch] = N * t + ch := by
      simp [addr, dense, denseDims]
      try ring
    show (mem32 N X).mem 0 _ = _
    rw [e]
    have e1 : ((N : Int) * t + ch) / N = t := by
      rw [Int.mul_add_ediv_left _ _ (by omega), Int.ediv_eq_zero_of_lt h3 h4, add_zero]
    have e2 : ((N : Int) * t + ch) % N = ch := by
      rw [Int.mul_add_emod_self_left, Int.emod_eq_of_lt h3 h4]
    have e3 : 0 ≤ (N : Int) * t + ch ∧ (N : Int) * t + ch < 3 * N := by
      constructor
      · have := Int.mul_nonneg (Int.natCast_nonneg N) h1; omega
      · have : (N : Int) * t ≤ N * 2 := mul_le_mul_of_nonneg_left (by omega) (by omega)
        omega
    simp only [mem32, e3, e1, e2, onIdx]
    simp
  mask := by
    intro i hi
    obtain ⟨t, ch, rfl, h1, h2, h3, h4⟩ := valid2 hi
    have e : addr (dense 1 [((3 : Nat) : Int), (N : Int)]).dims [t, ch] = N * t + ch := by
      simp [addr, dense, denseDims]
      try ring
    show (mem32 N X).mem 1 _ = _
    rw [e]
    have e3 : 0 ≤ (N : Int) * t + ch ∧ (N : Int) * t + ch < 3 * N := by
      constructor
      · have := Int.mul_nonneg (Int.natCast_nonneg N) h1; omega
      · have : (N : Int) * t ≤ N * 2 := mul_le_mul_of_nonneg_left (by omega) (by omega)
        omega
    simp [mem32, e3]

-- a channel and options that meet every hypothesis of `C147_tone_survives_float_partial`: a tone of 90
-- over noise and a constant signal of 40
example :
    let X : Nat → Int → F32 ne24 := fun t c => ⟨toneChan 5 t c⟩
    let ch : Nat → Int := fun t => 5 + t
    let ro : RateOptions := { low := -2, high := 3, step := 1 }
    let l := clean 3 16 (flagsOf sk32 lowSk32 highSk32 1 ⟨2⟩ 1 3 16 X)
    let floor := (floorOf stat32 X l).val
    let noise := (driftNoise ratArith32 (powerOf stat32 X l) 3).val
    let snr := ((∑ t ∈ Finset.range 3, (X t (ch t)).val) / (3 : Nat) - floor) / noise
    Loaded (mem32 16 (toneChan 5)) 3 16 X 0 1 ∧ FlagRange (fun _ => 1) 1 3 16 1 ∧ Defined ro 3 16 ∧
      (∀ i : Nat, (i : Int) < (ro.high - ro.low).tdiv ro.step →
        |ro.low + i * ro.step| ≤ (3 : Int) - 1) ∧
      Tone32 3 16 X 5 2 ch 90 40 0 16 ∧ Away sk32 lowSk32 1 ⟨2⟩ 1 3 16 X ch 2 ∧
      (2 : Int) = ro.low + (4 : Nat) * ro.step ∧ l ≠ [] ∧
      0 < noise ∧ (0 ≤ floor ∧ floor ≤ 90 / 2) ∧ 250 * (1 + 1 / 512) < snr ∧
      40 * (1 + 1 / 4096) ≤ fullLevel floor 250 noise := by
  have hrange : ∀ i : Nat, (i : Int) < ((3 : Int) - -2).tdiv 1 → i < 5 := by
    intro i hi
    have : ((3 : Int) - -2).tdiv 1 = 5 := by decide
    simp only [this] at hi
    omega
  refine ⟨loaded32 16 _, ⟨by decide, rfl, by decide, by decide, by decide⟩,
    ⟨by decide, by decide, by decide, fun i hi => ?_⟩, fun i hi => ?_,
    ⟨⟨?_⟩, by decide, by decide, by norm_num, ?_, ?_, ?_⟩, ?_, by decide, ?_, ?_, ?_, ?_, ?_⟩
  · have := hrange i hi
    interval_cases i <;> decide
  · have := hrange i hi
    interval_cases i <;> decide
  · intro t ht
    interval_cases t <;> norm_num
  · intro t ht
    interval_cases t <;> norm_num [toneChan]
  · intro t ht c _ _ _ _ hne
    show toneChan 5 t c ≤ 40
    unfold toneChan
    rw [if_neg hne]
    split_ifs <;> norm_num
  · intro t ht c _ _
    show 0 ≤ toneChan 5 t c
    unfold toneChan
    split_ifs <;> norm_num
  · intro t ht c hc
    dsimp only at hc
    rw [abs_le] at hc
    have h1 : 3 ≤ c := by omega
    have h2 : c ≤ 9 := by omega
    interval_cases c <;> decide +kernel
  all_goals decide +kernel

-- a channel and options that meet every hypothesis of `C148_tone_among_others_float_partial`: the same
-- tone beside one of ten times its strength
example :
    let X : Nat → Int → F32 ne24 := fun t c => ⟨twoChan 33 900 t c⟩
    let ch : Nat → Int := fun t => 18 + t
    let l := clean 3 40 (flagsOf sk32 lowSk32 highSk32 1 ⟨2⟩ 1 3 40 X)
    let floor := (floorOf stat32 X l).val
    let noise := (driftNoise ratArith32 (powerOf stat32 X l) 3).val
    let snr := ((∑ t ∈ Finset.range 3, (X t (ch t)).val) / (3 : Nat) - floor) / noise
    Loaded (mem32 40 (twoChan 33 900)) 3 40 X 0 1 ∧ FlagRange (fun _ => 1) 1 3 40 1 ∧
      Defined twoRates 3 40 ∧
      (∀ i : Nat, (i : Int) < (twoRates.high - twoRates.low).tdiv twoRates.step →
        |twoRates.low + i * twoRates.step| ≤ 2) ∧
      Tone32 3 40 X 18 2 ch 90 2 (14 - (2 * 2 + 3)) (25 + (2 * 2 + 3)) ∧
      (∀ t < 3, 14 + 2 * 2 ≤ ch t ∧ ch t < 25 - 2 * 2) ∧
      Away sk32 lowSk32 1 ⟨2⟩ 1 3 40 X ch 2 ∧ (2 : Int) = twoRates.low + (4 : Nat) * twoRates.step ∧
      l ≠ [] ∧ 0 < noise ∧ (0 ≤ floor ∧ floor ≤ 90 / 2) ∧ 50 * (1 + 1 / 512) < snr ∧
      2 * (1 + 1 / 4096) ≤ fullLevel floor ((⟨50⟩ : F32 ne24) / 2).val noise := by
  refine ⟨loaded32 40 _, ⟨by decide, rfl, by decide, by decide, by decide⟩,
    ⟨by decide, by decide, by decide, fun i hi => ?_⟩, fun i hi => ?_,
    ⟨⟨?_⟩, by decide, by decide, by norm_num, ?_, ?_, ?_⟩, ?_, ?_, by decide, ?_, ?_, ?_, ?_, ?_⟩
  · have := twoRates_range hi
    interval_cases i <;> decide
  · have := twoRates_range hi
    interval_cases i <;> decide
  · intro t ht
    interval_cases t <;> norm_num
  · intro t ht
    interval_cases t <;> norm_num [twoChan]
  · intro t ht c _ _ h1 h2 hne
    exact twoChan_low hne (by omega)
  · intro t ht c _ _
    show 0 ≤ twoChan 33 900 t c
    unfold twoChan
    split_ifs <;> norm_num
  · intro t ht
    dsimp only
    omega
  · intro t ht c hc
    dsimp only at hc
    rw [abs_le] at hc
    have h1 : 16 ≤ c := by omega
    have h2 : c ≤ 22 := by omega
    interval_cases c <;> decide +kernel
  all_goals decide +kernel

end Bliss.Hit
