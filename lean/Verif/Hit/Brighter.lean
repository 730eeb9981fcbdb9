import Verif.Drift.Linear
import Verif.Hit.RecoverFloat
import Verif.Hit.PipelineProps

/-!
# Brighter data are not reported as weaker (C136, C137)

The single-precision arithmetic of the drift integrator respects the order, so a spectrum that is
nowhere darker gives, against the same noise, a hit at least as strong for every hit.
-/

namespace Bliss.Hit

open Bliss.Comp (Coord Grid Search Protohit findThresh findMaxima)
open Bliss.Drift Bliss.Float

instance {R : Rounding 24} : LE (F32 R) := ⟨fun a b => a.val ≤ b.val⟩

theorem F32.le_val {R : Rounding 24} (a b : F32 R) : a ≤ b ↔ a.val ≤ b.val := Iff.rfl

/-- **C136, in single precision.** Rounded sums and quotients respect the order, in every rounding
mode: `C136_monotone` applies. -/
theorem C136_float (R : Rounding 24) : MonotoneArith (F32 R) where
  refl := fun a => le_refl a.val
  add := fun a b c d h h' => R.mono _ _ (add_le_add h h')
  div := fun a b n hn h => by
    refine R.mono _ _ (div_le_div_of_nonneg_right h ?_)
    exact R.nonneg (by exact_mod_cast hn.le)

/-- The samples of a path lie in the spectrum. -/
theorem path_inside {N T : Nat} {up : Bool} {span d : Int} {off : Nat → Int}
    (hf : Fits N T up span d off) {c : Int} (h0 : 0 ≤ c) (hc : c < N) {s : Nat × Int}
    (hs : s ∈ path N T up span d.toNat off c) : s.1 < T ∧ 0 ≤ s.2 ∧ s.2 < N := by
  obtain ⟨t, ch⟩ := s
  cases up with
  | true =>
    obtain ⟨ht, k, hk, rfl, hN⟩ := (mem_path_up ..).1 hs
    simp only [Fits, if_true] at hf
    have := hf t ht
    exact ⟨ht, by omega, hN⟩
  | false =>
    obtain ⟨ht, -, k, hk, rfl, hN⟩ := (mem_path_down ..).1 hs
    simp only [Fits, Bool.false_eq_true, if_false] at hf
    have := hf.2.2 t ht
    exact ⟨ht, hN, by omega⟩

/-- What two searches with the same settings share: both spectra have `T` time steps and `N` channels,
start at the beginning of their memory and hold `x` and `y`. -/
structure TwoSpectra {F : Type} (inp inp' : Input F) (x y : Nat → Int → F)
    (mask mask' : Nat → Int → UInt8) (T N : Nat) : Prop where
  first : Holds inp x mask
  second : Holds inp' y mask'
  start : inp.specOffset = 0 ∧ inp.rfiOffset = 0
  start' : inp'.specOffset = 0 ∧ inp'.rfiOffset = 0
  time : inp.timeSteps = T ∧ inp'.timeSteps = T
  band : inp.numChannels = N ∧ inp'.numChannels = N

/-- **C137 (part).** Let a spectrum be nowhere darker than another. Searched with the same drifts,
thresholds and noise estimate, in single precision with any rounding, it gives for every hit of the
other a hit that is at least as strong: added power hides nothing.

Missing: the noise estimate is the same for both, whereas the program estimates it from the data; and
thresholds below the smallest normal float. -/
theorem C137_brighter_partial (R24 : Rounding 24) (R53 : Rounding 53) (hz : Fl → Fl)
    (ar : Arith (F32 R24) Fl) (fltMin : F32 R24) (junk junk' : Coord → Int) (cc : Channel Fl)
    {inp inp' : Input (F32 R24)} {x y : Nat → Int → F32 R24} {mask mask' : Nat → Int → UInt8}
    {T N : Nat} (hin : TwoSpectra inp inp' x y mask mask' T N) {ro : RateOptions} (hT : 2 ≤ T)
    (hT' : (T : Int) - 1 ≤ 2 ^ 24) (hstep : ro.step ≠ 0) (hne : 0 < (ro.high - ro.low).tdiv ro.step)
    (hrange : ∀ i : Nat, (i : Int) < (ro.high - ro.low).tdiv ro.step →
      |ro.low + i * ro.step| < 2 ^ 22 ∧ 2 * |ro.low + i * ro.step| ≤ N)
    (noisePower floor : F32 R24) (hnoise : ∀ n, 0 ≤ (driftNoise ar noisePower n).val)
    (o : Options (F32 R24)) (hm : o.method = .connectedComponents) (hmin : 0 ≤ fltMin.val)
    (hthr : fltMin.val ≤ o.thr.val)
    (hle : ∀ t < T, ∀ c : Int, 0 ≤ c → c < N → x t c ≤ y t c) :
    ∃ hs hs', driftSearch R24 R53 hz ar fltMin junk cc inp ro noisePower floor o = .ok hs ∧
      driftSearch R24 R53 hz ar fltMin junk' cc inp' ro noisePower floor o = .ok hs' ∧
      ∀ h ∈ hs, ∃ h' ∈ hs', h.snr ≤ h'.snr := by
  obtain ⟨rates, off, hcd, hlen, hofs, hall⟩ := driftSetup R24 R53 hz (N := N) hT hT' hstep hne hrange
  obtain ⟨k1, k2, k3, k4, ⟨k5, k5'⟩, k6, k6'⟩ := hin
  have hx : RunsOn (flOps R53) inp x mask rates off T N :=
    ⟨k1, k3, k5, k6, hofs, fun i r hr => (hall i r hr).1⟩
  have hy : RunsOn (flOps R53) inp' y mask' rates off T N :=
    ⟨k2, k4, k5', k6', hofs, fun i r hr => (hall i r hr).1⟩
  obtain ⟨a, b, ha, hb, hcell⟩ := C136_monotone (C136_float R24) (by omega) hx hy
    (fun i r hr => (hall i r hr).2.2.2.2.1)
  have hint : ∀ (i : Input (F32 R24)) (a : Acc (F32 R24)), i.timeSteps = T →
      integrateCpu (flOps R53) i rates = .ok a → integrateDrifts R24 R53 hz i ro = .ok (a, rates) := by
    intro i a hi he
    unfold integrateDrifts
    rw [hi, hcd, Outcome.bind_ok]
    cases hr : rates with
    | nil => rw [hr] at hlen; simp at hlen; omega
    | cons r rs => rw [hr] at he; simp only [he]; rfl
  have htrans : ∀ a b c : F32 R24, a < b → b < c → a < c := fun a b c h h' => lt_trans (α := ℚ) h h'
  have hirr : ∀ a : F32 R24, ¬ a < a := fun a => lt_irrefl a.val
  have hhalf := F32.half_lt (thr := o.thr) (hmin.trans hthr)
  have hlow : ∀ v : F32 R24, o.thr < v → fltMin < v := fun v hv => lt_of_le_of_lt hthr hv
  obtain ⟨cs, hs, e1, e2, e3, -⟩ := hitSearch_covers ar fltMin junk cc (planeOf inp a rates)
    noisePower floor o hm htrans hirr (by simp [planeOf]) hhalf hlow
  obtain ⟨cs', hs', -, f2, -, f4⟩ := hitSearch_covers ar fltMin junk' cc (planeOf inp' b rates)
    noisePower floor o hm htrans hirr (by simp [planeOf]) hhalf hlow
  refine ⟨hs, hs', ?_, ?_, ?_⟩
  · unfold driftSearch; rw [hint inp a k5 ha]; exact e2
  · unfold driftSearch; rw [hint inp' b k5' hb]; exact f2
  intro h hh
  obtain ⟨i, hi, rfl⟩ := List.mem_iff_getElem.1 hh
  have hi' : i < cs.length := e3.length_eq ▸ hi
  have hd : Describes ar cc (planeOf inp a rates) noisePower floor o.thr cs[i] hs[i] :=
    (List.forall₂_iff_get.1 e3).2 i hi' hi
  obtain ⟨p1, p2⟩ := hd.peak
  have hg := hd.inPlane
  have hsnr : hs[i].snr = (toSearch ar (planeOf inp a rates) noisePower floor o).snr cs[i].indexMax := by
    obtain ⟨r, r1, _, r3⟩ := hd.rate
    rw [r3]
    unfold Search.snr
    have : (toSearch ar (planeOf inp a rates) noisePower floor o).noise cs[i].indexMax.1 =
        noiseOf ar noisePower (planeOf inp a rates).steps r := by
      simp only [toSearch]
      rw [p1] at r1
      rw [r1]
    rw [this, p1, p2]
    rfl
  rw [p1, p2] at hg
  generalize cs[i].indexMax = q at *
  obtain ⟨q1, q2⟩ := q
  obtain ⟨g1, g2, g3, g4⟩ := hg
  simp only [planeOf] at g1 g2 g3 g4
  rw [k6] at g4
  obtain ⟨n, rfl⟩ := Int.eq_ofNat_of_zero_le g1
  have hn : n < rates.length := by simpa using g2
  have hr := List.getElem?_eq_getElem hn
  obtain ⟨u, v, u1, v1, huv⟩ := hcell n _ hr q2 g3 g4 fun s hs' => by
    obtain ⟨j1, j2, j3⟩ := path_inside (hall n _ hr).1 g3 g4 hs'
    exact hle _ j1 _ j2 j3
  have c1 := snr_cell (inp := inp) (ar := ar) (noisePower := noisePower) (floor := floor) (o := o) hr
    (c := q2) (by rw [k6]; exact u1)
  have c2 := snr_cell (inp := inp') (ar := ar) (noisePower := noisePower) (floor := floor) (o := o) hr
    (c := q2) (by rw [k6']; exact v1)
  rw [k5] at c1
  rw [k5'] at c2
  have hmono : (toSearch ar (planeOf inp a rates) noisePower floor o).snr (n, q2) ≤
      (toSearch ar (planeOf inp' b rates) noisePower floor o).snr (n, q2) := by
    rw [c1, c2]
    exact R24.mono _ _ (div_le_div_of_nonneg_right
      (R24.mono _ _ (sub_le_sub_right (α := ℚ) huv _)) (hnoise _))
  have habove : o.thr < (toSearch ar (planeOf inp' b rates) noisePower floor o).snr (n, q2) :=
    lt_of_lt_of_le (α := ℚ) (hsnr ▸ hd.above) hmono
  obtain ⟨_, _, _, h', hh', _, _, hlt⟩ := f4 (n, q2)
    ⟨by simp, by simpa [planeOf] using hn, g3, by simpa [planeOf, k6'] using g4⟩ habove
  refine ⟨h', hh', ?_⟩
  rw [hsnr]
  exact le_trans (α := ℚ) hmono (not_lt.1 hlt)

/-! ## Noise estimated from the data -/

section Estimated

open Bliss.Drift Bliss.Comp Bliss.Float Bliss.Nd Bliss.Stat Bliss.Flag

/-- `exChan`, with channel 2 brightened at the last time step. -/
def exBright (t : Nat) (ch : Int) : Bin 24 := if ch = 2 ∧ t = 2 then ⟨6⟩ else exChan 1 t ch

/-- The memory of this channel. -/
def brightMem : Heap (Val (Bin 24)) where
  mem b i := if 0 ≤ i ∧ i < 36 then
      (if b = 0 then some (.num (exBright (i / 12).toNat (i % 12))) else if b = 1 then some (.flag 0)
        else none)
    else none
  next := 2

/-- The steps of `bliss_find_hits` with the settings of `exRun`. -/
def brightRun (h : Heap (Val (Bin 24))) : Outcome (List (Hit (Bin 24) Fl)) :=
  searchFlagged (nearestEven 24 (by norm_num)) (nearestEven 53 (by norm_num)) id (binArith binSqrt)
    ⟨2 ^ (-126 : ℤ)⟩ (fun _ => 0) ⟨.fin 0, .fin 1, .fin 0, .fin 1, 0⟩ (fun _ => 1) binSk
    (fun x => decide (x.q < 1 / 20)) (fun x => decide (5 < x.q)) 1 ⟨2⟩ (binStat binSqrt)
    { low := -2, high := 3, step := 1 } ⟨.connectedComponents, ⟨250⟩, 1⟩
    (fun x => match x with | .fin q => decide (|q| < 1 / 1000000) | _ => false) true
    (dense 0 [(3 : Nat), (12 : Nat)]) (dense 1 [(3 : Nat), (12 : Nat)]) (fun _ _ _ => .flag 0) h

def brightHits (h : Heap (Val (Bin 24))) : Option (List ℚ) :=
  match brightRun h with
  | .ok l => some (l.map fun h => h.snr.q)
  | _ => none

theorem brightLoaded : Loaded brightMem 3 12 exBright 0 1 where
  apart := by decide
  dataIn := Nat.zero_lt_two
  maskIn := Nat.one_lt_two
  data := by
    intro i hi
    obtain ⟨t, ch, rfl, h1, h2, h3, h4⟩ := valid2 hi
    have e : addr (dense 0 [((3 : Nat) : Int), ((12 : Nat) : Int)]).dims [t, ch] = 12 * t + ch := by
      simp [addr, dense, denseDims]
      try ring
    show brightMem.mem 0 _ = _
    rw [e]
    have e1 : (12 * t + ch) / 12 = t := by omega
    have e2 : (12 * t + ch) % 12 = ch := by omega
    have e3 : 0 ≤ 12 * t + ch ∧ 12 * t + ch < 36 := by omega
    simp only [brightMem, e3, e1, e2, onIdx]
    simp
  mask := by
    intro i hi
    obtain ⟨t, ch, rfl, h1, h2, h3, h4⟩ := valid2 hi
    have e : addr (dense 1 [((3 : Nat) : Int), ((12 : Nat) : Int)]).dims [t, ch] = 12 * t + ch := by
      simp [addr, dense, denseDims]
      try ring
    show brightMem.mem 1 _ = _
    rw [e]
    have e3 : 0 ≤ 12 * t + ch ∧ 12 * t + ch < 36 := by omega
    simp [brightMem, e3]

/-- **C137 fails with estimated noise.** One sample of a quiet channel, raised from 1 to 6, hides a
tone of 90 in other channels: the noise estimate grows, and the tone falls below the threshold. -/
theorem C137_estimated_noise_hides :
    Loaded (exMem 1) 3 12 (exChan 1) 0 1 ∧ Loaded brightMem 3 12 exBright 0 1 ∧
      (∀ t < 3, ∀ c : Int, 0 ≤ c → c < 12 → (exChan 1 t c).q ≤ (exBright t c).q) ∧
      (∃ h, brightRun (exMem 1) = .ok [h]) ∧ brightRun brightMem = .ok [] := by
  have hlen : ∀ (h : Heap (Val (Bin 24))) (n : Nat), (brightHits h).map List.length = some n →
      ∃ l, brightRun h = .ok l ∧ l.length = n := by
    intro h n e
    unfold brightHits at e
    split at e
    · rename_i l hl
      exact ⟨l, hl, by simpa using e⟩
    · cases e
  obtain ⟨l, h1, h2⟩ := hlen (exMem 1) 1 (by decide +kernel)
  obtain ⟨l', h3, h4⟩ := hlen brightMem 0 (by decide +kernel)
  obtain rfl := List.length_eq_zero_iff.1 h4
  obtain ⟨x, rfl⟩ := List.length_eq_one_iff.1 h2
  refine ⟨exLoaded 1, brightLoaded, ?_, ⟨x, h1⟩, h3⟩
  intro t ht c h0 hc
  have key : ∀ t < 3, ∀ c < 12, (exChan 1 t ((c : Nat) : Int)).q ≤ (exBright t (c : Int)).q := by
    decide +kernel
  have := key t ht c.toNat (by omega)
  rwa [Int.toNat_of_nonneg h0] at this

end Estimated

/-- The hypotheses of `C137_brighter_partial` are met, in every rounding mode, by a tone of 9 and the
same tone with a second one beside it, and a hit is found. -/
example (R24 : Rounding 24) (R53 : Rounding 53) :
    let x : Nat → Int → F32 R24 := fun t c => ⟨if c = 2 + t then 9 else 1 / 8⟩
    let y : Nat → Int → F32 R24 := fun t c => ⟨if c = 2 + t then 9 else if c = 6 then 40 else 1 / 8⟩
    ∃ hs hs', driftSearch R24 R53 id (unitArith32 R24) ⟨0⟩ (fun _ => 0) ⟨.fin 0, .fin 1, .fin 0, .fin 1, 0⟩
        (denseInput 3 8 x (fun _ _ => 0)) { low := -2, high := 3, step := 1 } ⟨1⟩ ⟨1⟩
        ⟨.connectedComponents, ⟨5⟩, 1⟩ = .ok hs ∧
      driftSearch R24 R53 id (unitArith32 R24) ⟨0⟩ (fun _ => 0) ⟨.fin 0, .fin 1, .fin 0, .fin 1, 0⟩
        (denseInput 3 8 y (fun _ _ => 0)) { low := -2, high := 3, step := 1 } ⟨1⟩ ⟨1⟩
        ⟨.connectedComponents, ⟨5⟩, 1⟩ = .ok hs' ∧ ∀ h ∈ hs, ∃ h' ∈ hs', h.snr ≤ h'.snr := by
  intro x y
  refine C137_brighter_partial R24 R53 id (unitArith32 R24) ⟨0⟩ _ _ _ (T := 3) (N := 8)
    (x := x) (y := y) (mask := fun _ _ => 0) (mask' := fun _ _ => 0)
    ⟨denseInput_holds _ _ _ _, denseInput_holds _ _ _ _, ⟨rfl, rfl⟩, ⟨rfl, rfl⟩, ⟨rfl, rfl⟩, rfl, rfl⟩
    (by norm_num) (by norm_num) (by decide) (by decide) ?_ _ _ (fun n => ?_) _ rfl (le_refl _) ?_ ?_
  · intro i hi
    have : i < 5 := by
      have : ((3 : Int) - -2).tdiv 1 = 5 := by decide
      simp only [this] at hi
      omega
    interval_cases i <;> decide
  · simp [driftNoise, unitArith32]
  · show (0 : ℚ) ≤ 5
    norm_num
  · intro t _ c _ _
    show (if c = 2 + (t : Int) then (9 : ℚ) else 1 / 8) ≤
      (if c = 2 + (t : Int) then 9 else if c = 6 then 40 else 1 / 8)
    split <;> [exact le_refl _; (split <;> norm_num)]

end Bliss.Hit
