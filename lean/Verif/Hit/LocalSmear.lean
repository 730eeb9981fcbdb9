import Verif.Hit.Local
import Verif.Hit.SurviveSmear

/-!
# A fast tone among other signals (C148, desmeared drifts)
-/

namespace Bliss.Hit

open Bliss.Drift Bliss.Comp Bliss.Float Bliss.Nd Bliss.Stat Bliss.Flag

variable {F D : Type} [Field F] [LinearOrder F] [IsStrictOrderedRing F]

/-- A tone over a background in the channels from `lo` to `hi`, of power `p t` in each of `w` channels at time
step `t`; nothing is said about the other channels. -/
structure SmearedToneIn (T N : Nat) (X : Nat → Int → F) (c₀ d : Int) (w : Nat) (ch : Nat → Int) (level : F)
    (p : Nat → F) (lo hi : Int) : Prop where
  line : ToneLine T c₀ d ch
  spread : ChannelsPerStep T d w
  start : 0 ≤ c₀ ∧ c₀ < N
  stop : 0 ≤ c₀ + d ∧ c₀ + d < N
  floor : 0 ≤ level
  strong : ∀ t < T, level < p t
  power : ∀ t < T, ∀ c : Int, InWindow d w (ch t) c → X t c = p t
  rest : ∀ t < T, ∀ c : Int, 0 ≤ c → c < N → lo ≤ c → c < hi → ¬ InWindow d w (ch t) c → X t c ≤ level

/-- **C148, with C147, desmeared drifts.** The tone of `C147_smeared_tone_survives_partial` in a channel with any
other signals, also stronger ones: if they stay outside the channels from `a` to `e`, in which the tone keeps a
distance of twice the fastest drift from the ends, and a further twice the fastest drift and the neighbour
distance away from them, and the background in between is not above half the threshold, then the tone is
reported, and it is the strongest hit in these channels.

Missing: float rounding of the sums. -/
theorem C148_smeared_among_others_partial (R24 : Rounding 24) (R53 : Rounding 53) (hz : Fl → Fl)
    (ar : Arith F Fl)
    (fltMin : F) (junk : Coord → Int) (cc : Channel Fl) (width : Int → Int) (so : SkOps F)
    (lt gt : F → Bool) (nsk : Int) (dSk : F) (o : StatOps F D) (ro : RateOptions) (op : Options F)
    (tiny : Fl → Bool) (zeroDrift : Bool) (j : Nat → Nat → Int → Val F) (h : Heap (Val F))
    (T N : Nat) (X : Nat → Int → F) (k : Int) (bd bm : Nat) (hr : FlagRange width nsk T N k)
    (hload : Loaded h T N X bd bm) (hd : Defined ro T N) (hdes : ro.desmear = true)
    {S : Int} (hS : ∀ i : Nat, (i : Int) < (ro.high - ro.low).tdiv ro.step → |ro.low + i * ro.step| ≤ S)
    {most : Int} (hmost : 1 ≤ most ∧ most ≤ 2 ^ 24)
    (hsteps : ∀ i : Nat, (i : Int) < (ro.high - ro.low).tdiv ro.step →
      |ro.low + i * ro.step| ≤ most * ((T : Int) - 1))
    (hm : op.method = .connectedComponents) (hdist : 0 ≤ op.dist) (hmin : 0 ≤ fltMin)
    (hthr : fltMin ≤ op.thr)
    {c₀ d : Int} {i₀ w : Nat} (hi₀ : (i₀ : Int) < (ro.high - ro.low).tdiv ro.step)
    (hd₀ : d = ro.low + i₀ * ro.step) {ch : Nat → Int} {level : F} {p : Nat → F} {a e : Int}
    (htone : SmearedToneIn T N X c₀ d w ch level p (a - (2 * S + op.dist)) (e + (2 * S + op.dist)))
    (hwhere : ∀ t < T, ∀ c : Int, InWindow d w (ch t) c → a + 2 * S ≤ c ∧ c < e - 2 * S)
    (haway : Away so lt nsk dSk k T N X ch (S + 2 * most))
    (hrate : zeroDrift = true → tiny (hz (.fin (R24.r ((d : ℚ) / ((T : ℚ) - 1))))) = false)
    (hsome : clean T N (flagsOf so lt gt nsk dSk k T N X) ≠ []) :
    let l := clean T N (flagsOf so lt gt nsk dSk k T N X)
    let noise := fun m : Int => driftNoise ar (powerOf o X l) (T * m)
    let floor := floorOf o X l
    (∀ m : Int, 1 ≤ m → m ≤ max most S → 0 < noise m ∧ (level - floor) / noise m ≤ op.thr / 2) →
    NoiseFalls noise most → NoiseSteady noise most →
    floor ≤ level → (∀ t < T, most * (level - floor) < p t - level) →
    op.thr < ((∑ t ∈ Finset.range T, p t) / (T : F) - floor) / noise w →
    ∃ (hits : List (Hit F Fl)) (hit : Hit F Fl),
      searchFlagged R24 R53 hz ar fltMin junk cc width so lt gt nsk dSk o ro op tiny zeroDrift
        (dense bd [(T : Int), (N : Int)]) (dense bm [(T : Int), (N : Int)]) j h = .ok hits ∧
      hit ∈ hits ∧ hit.startFreqIndex = c₀ ∧ hit.rateIndex = i₀ ∧
      hit.driftRate = hz (.fin (R24.r ((d : ℚ) / ((T : ℚ) - 1)))) ∧
      hit.snr = ((∑ t ∈ Finset.range T, p t) / (T : F) - floor) / noise w ∧
      ∀ hit' ∈ hits, a ≤ hit'.startFreqIndex → hit'.startFreqIndex < e → hit'.snr ≤ hit.snr := by
  intro l noise floor hnoise hfalls hsteady hfl hclear habove
  set Q := flagsOf so lt gt nsk dSk k T N X with hQ
  have hT : 0 < T := by have := hd.steps.1; omega
  have hS0 : 0 ≤ S := (abs_nonneg _).trans (hS i₀ hi₀)
  have hthr0 : 0 ≤ op.thr := hmin.trans hthr
  have hk1 := hr.some
  have hwm : (w : Int) ≤ most := widths_le hd.steps.1 htone.spread hsteps hi₀ hd₀ hmost.1
  let G := 2 * S + op.dist
  let Y : Nat → Int → F := fun t c => if a - G ≤ c ∧ c < e + G then X t c else 0
  have htoneY : SmearedTone N T Y d w ch level p := by
    refine ⟨fun t ht c _ _ hin => ?_, fun t ht c h0 hc hne => ?_, htone.strong⟩
    · show (if a - G ≤ c ∧ c < e + G then X t c else 0) = p t
      rw [if_pos (by
        have := hwhere t ht c hin
        show a - (2 * S + op.dist) ≤ c ∧ c < e + (2 * S + op.dist)
        omega)]
      exact htone.power t ht c hin
    · show (if a - G ≤ c ∧ c < e + G then X t c else 0) ≤ level
      split
      · next hin => exact htone.rest t ht c h0 hc hin.1 hin.2 hne
      · exact htone.floor
  have hhalf : op.thr / 2 ≤ op.thr := half_le_self hthr0
  obtain ⟨hs', hit, e1, e2, e3, e4, e5, e6, e7, hacc⟩ := smeared_clear R24 R53 hz ar fltMin junk cc ro op
    tiny zeroDrift T N Y Q hd hdes hS hmost hsteps hm hmin hthr hi₀ hd₀ htone.spread htone.start htone.stop htone.line
    (by
      intro t ht c hc
      have := haway t ht c (by
        unfold InWindow at hc
        rw [abs_le]
        split at hc <;> omega)
      omega) htone.floor htoneY
    (fun t ht x hx t' => by
      obtain ⟨v1, v2, v3⟩ := haway t ht x hx
      exact flags_clear so lt gt nsk dSk k T N X t' v1 v2 v3)
    hrate (powerOf o X l) floor (fun m h1 h2 => (hnoise m h1 (h2.trans (le_max_left _ _))).1) hfalls hsteady hfl
    hclear habove ((hnoise most hmost.1 (le_max_left _ _)).2.trans hhalf)
  have hlevel : ∀ m : Int, 1 ≤ m → m ≤ max 1 S →
      ((ro.desmear = false ∨ ∀ i : Nat, (i : Int) < (ro.high - ro.low).tdiv ro.step →
        |ro.low + i * ro.step| ≤ (T : Int) - 1) → m = 1) →
      0 < driftNoise ar (powerOf o X l) (T * m) ∧
      (level - floor) / driftNoise ar (powerOf o X l) (T * m) ≤ op.thr / 2 := by
    intro m m1 m2 _
    exact hnoise m m1 (m2.trans (max_le_max hmost.1 le_rfl))
  have hbg : ∀ t < T, ∀ c : Int, 0 ≤ c → c < N → a - G ≤ c → c < e + G →
      (c < a + 2 * S ∨ e - 2 * S ≤ c) → X t c ≤ level ∧ Y t c ≤ level := by
    intro t ht c h0 hc g1 g2 hout
    have hx : X t c ≤ level := htone.rest t ht c h0 hc g1 g2 (by
      intro hin
      have := hwhere t ht c hin
      omega)
    refine ⟨hx, ?_⟩
    show (if a - G ≤ c ∧ c < e + G then X t c else 0) ≤ level
    rw [if_pos ⟨g1, g2⟩]; exact hx
  have hin0 : a + 2 * S ≤ c₀ ∧ c₀ < e - 2 * S := by
    obtain ⟨off, ho1, ho2⟩ := C06_path_geometry_partial R24 R53 (hd₀ ▸ (hd.range i₀ hi₀).1) hd.steps.1
      hd.steps.2
    have h1 := tone_offsets htone.line ho2 0 hT
    rw [ho2.start, add_zero] at h1
    refine hwhere 0 hT c₀ ?_
    rw [h1]
    have := htone.spread.pos
    unfold InWindow
    split_ifs <;> omega
  have hae : a ≤ e := by omega
  obtain ⟨hs, hs'', f1, f2, f3⟩ := C148_hits_local R24 R53 hz ar fltMin junk cc
    (denseInput_holds T N X Q) (denseInput_holds T N Y Q) ⟨rfl, rfl⟩ ⟨rfl, rfl⟩ (T := T) (N := N)
    ⟨rfl, rfl⟩ ⟨rfl, rfl⟩ hd (powerOf o X l) floor op hm
    ⟨fun _ _ _ => lt_trans, fun _ => lt_irrefl _, fun v hv => lt_of_le_of_lt hhalf hv,
      fun v hv => lt_of_le_of_lt hthr hv⟩ hS (a := a) (b := e)
    (fun t ht c h1 h2 => ⟨(if_pos (by
      show a - (2 * S + op.dist) ≤ c ∧ c < e + (2 * S + op.dist)
      omega)).symm, rfl⟩)
    (by
      intro Z hZ
      refine ⟨QuietLines.of_level hT hS htone.floor ?_ hlevel, QuietLines.of_level hT hS htone.floor ?_ hlevel⟩
      · intro t ht c h0 hc g1 g2
        have := hbg t ht c h0 hc (by show a - (2 * S + op.dist) ≤ c; omega)
          (by show c < e + (2 * S + op.dist); omega) (by omega)
        rcases hZ with rfl | rfl
        · exact this.1
        · exact this.2
      · intro t ht c h0 hc g1 g2
        have := hbg t ht c h0 hc (by show a - (2 * S + op.dist) ≤ c; omega)
          (by show c < e + (2 * S + op.dist); omega) (by omega)
        rcases hZ with rfl | rfl
        · exact this.1
        · exact this.2)
  rw [e1] at f2
  obtain rfl := Outcome.ok.inj f2
  have hmem : hit ∈ hs := by
    have : hit ∈ hs'.filter (fun h => decide (a ≤ h.startFreqIndex ∧ h.startFreqIndex < e)) :=
      List.mem_filter.mpr ⟨e2, by rw [e3, decide_eq_true_eq]; omega⟩
    rw [← f3] at this
    exact (List.mem_filter.mp this).1
  have hrun := (C117_search R24 R53 hz ar fltMin junk cc width so lt gt nsk dSk o ro op tiny
    zeroDrift j h T N X k bd bm hr hload).2 hs hsome f1
  have hsort := driftSearch_sorted f1
  refine ⟨_, touched hit, hrun, ?_, e3, e4, e5, e6, ?_⟩
  · rw [filterHits_eq tiny zeroDrift hs hsort]
    exact List.mem_map.mpr ⟨hit, List.mem_filter.mpr ⟨hmem, by simpa using hacc⟩, rfl⟩
  · intro hit' hh' g1 g2
    rw [filterHits_eq tiny zeroDrift hs hsort] at hh'
    obtain ⟨g, hg, rfl⟩ := List.mem_map.mp hh'
    have hg' := (List.mem_filter.mp hg).1
    have : g ∈ hs.filter (fun h => decide (a ≤ h.startFreqIndex ∧ h.startFreqIndex < e)) :=
      List.mem_filter.mpr ⟨hg', decide_eq_true (show a ≤ g.startFreqIndex ∧ g.startFreqIndex < e from ⟨g1, g2⟩)⟩
    rw [f3] at this
    exact e7 g (List.mem_filter.mp this).1

/-- Noise of 1 and 2, a constant signal of 1000 in channel 10, and a tone of 90 that starts in channel 40, moves by
two channels per time step and is in two channels at a time. -/
def strongChan (t : Nat) (c : Int) : ℚ :=
  if 40 + 2 * t ≤ c ∧ c < 40 + 2 * t + 2 then 90 else if c = 10 then 1000 else if (c + t) % 2 = 0 then 1 else 2

def strongMem : Heap (Val ℚ) where
  mem b i := if 0 ≤ i ∧ i < 216 then
      (if b = 0 then some (.num (strongChan (i / 72).toNat (i % 72))) else if b = 1 then some (.flag 0)
        else none)
    else none
  next := 2

theorem strongLoaded : Loaded strongMem 3 72 strongChan 0 1 where
  apart := by decide
  dataIn := Nat.zero_lt_two
  maskIn := Nat.one_lt_two
  data := by
    intro i hi
    obtain ⟨t, ch, rfl, h1, h2, h3, h4⟩ := valid2 hi
    have e : addr (dense 0 [((3 : Nat) : Int), ((72 : Nat) : Int)]).dims [t, ch] = 72 * t + ch := by
      simp [addr, dense, denseDims]
      try ring
    show strongMem.mem 0 _ = _
    rw [e]
    have e1 : (72 * t + ch) / 72 = t := by omega
    have e2 : (72 * t + ch) % 72 = ch := by omega
    have e3 : 0 ≤ 72 * t + ch ∧ 72 * t + ch < 216 := by omega
    simp only [strongMem, e3, e1, e2, onIdx]
    simp
  mask := by
    intro i hi
    obtain ⟨t, ch, rfl, h1, h2, h3, h4⟩ := valid2 hi
    have e : addr (dense 1 [((3 : Nat) : Int), ((72 : Nat) : Int)]).dims [t, ch] = 72 * t + ch := by
      simp [addr, dense, denseDims]
      try ring
    show strongMem.mem 1 _ = _
    rw [e]
    have e3 : 0 ≤ 72 * t + ch ∧ 72 * t + ch < 216 := by omega
    simp [strongMem, e3]

-- a channel and options that meet every hypothesis of the theorem; the other signal is eleven times as strong
example :
    let X := strongChan
    let ch : Nat → Int := fun t => 40 + 2 * t
    let ro : RateOptions := { low := 0, high := 5, step := 1 }
    let lt : ℚ → Bool := fun x => decide (x < 1 / 20)
    let l := clean 3 72 (flagsOf ratSk lt (fun x => decide (5 < x)) 1 2 1 3 72 X)
    let noise := fun m : Int => driftNoise ratArith (powerOf (ieeeOps binSqrt) X l) (3 * m)
    let floor := floorOf (ieeeOps binSqrt) X l
    Loaded strongMem 3 72 X 0 1 ∧ FlagRange (fun _ => 1) 1 3 72 1 ∧ Defined ro 3 72 ∧
      (∀ i : Nat, (i : Int) < (ro.high - ro.low).tdiv ro.step →
        |ro.low + i * ro.step| ≤ 4 ∧ |ro.low + i * ro.step| ≤ 2 * ((3 : Int) - 1)) ∧
      SmearedToneIn 3 72 X 40 4 2 ch 2 (fun _ => 90) (32 - (2 * 4 + 1)) (54 + (2 * 4 + 1)) ∧
      (∀ t < 3, ∀ c : Int, InWindow 4 2 (ch t) c → 32 + 2 * 4 ≤ c ∧ c < 54 - 2 * 4) ∧
      Away ratSk lt 1 2 1 3 72 X ch (4 + 2 * 2) ∧ (4 : Int) = ro.low + (4 : Nat) * ro.step ∧ l ≠ [] ∧
      (∀ m : Int, 1 ≤ m → m ≤ max 2 4 → 0 < noise m ∧ (2 - floor) / noise m ≤ 250 / 2) ∧
      NoiseFalls noise 2 ∧ NoiseSteady noise 2 ∧
      floor ≤ 2 ∧ (2 : ℚ) * (2 - floor) < 90 - 2 ∧ 250 < (90 - floor) / noise 2 := by
  have hrange : ∀ i : Nat, (i : Int) < ((5 : Int) - 0).tdiv 1 → i < 5 := by
    intro i hi
    have : ((5 : Int) - 0).tdiv 1 = 5 := by decide
    simp only [this] at hi
    omega
  refine ⟨strongLoaded, ⟨by decide, rfl, by decide, by decide, by decide⟩,
    ⟨by decide, by decide, by decide, fun i hi => ?_⟩, fun i hi => ?_,
    ⟨⟨?_⟩, ⟨by norm_num, .inr (by norm_num)⟩, by norm_num, by norm_num, by norm_num, fun _ _ => by norm_num, ?_, ?_⟩,
    ?_, ?_, by decide, ?_, ?_, ?_, ?_, ?_, ?_, ?_⟩
  · have := hrange i hi
    interval_cases i <;> decide
  · have := hrange i hi
    interval_cases i <;> decide
  · intro t ht
    interval_cases t <;> norm_num
  · intro t ht c h
    unfold InWindow at h
    exact if_pos (by simpa using h)
  · intro t ht c _ _ h1 _ h
    unfold InWindow at h
    refine (if_neg (by simpa using h)).le.trans ?_
    rw [if_neg (by omega)]
    split_ifs <;> norm_num
  · intro t ht c h
    simp only [InWindow, if_pos (show (0 : Int) ≤ 4 by norm_num)] at h
    push_cast at h
    omega
  · intro t ht c hc
    dsimp only at hc
    rw [abs_le] at hc
    have h1 : 32 ≤ c := by omega
    have h2 : c ≤ 52 := by omega
    interval_cases c <;> decide +kernel
  · decide +kernel
  · intro m h1 h2
    have h3 : m ≤ 4 := h2
    interval_cases m <;> decide +kernel
  · intro a b h1 h2 h3
    obtain rfl : a = 1 := by omega
    obtain rfl : b = 2 := by omega
    decide +kernel
  · intro a b h1 h2 h3
    obtain rfl : a = 1 := by omega
    obtain rfl : b = 2 := by omega
    decide +kernel
  all_goals decide +kernel

end Bliss.Hit
