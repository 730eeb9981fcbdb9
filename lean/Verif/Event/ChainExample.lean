import Verif.Event.Chain
import Verif.Event.EndToEndExample
import Verif.Hit.SurviveFloat
import Verif.Hit.Local

/-!
# A cadence that meets the hypotheses of C150

A tone in a coarse channel of 50 channels whose background varies between 1 and 2 and that also holds, in
every recording, a constant signal ten times as strong in channel 45. Floats and doubles are rounded to
nearest.
-/

namespace Bliss.Event

open Bliss.Hit
open Bliss.Float (Rounding rne nearestEven)
open Bliss.Drift (Fl)
open Bliss.Scan (Attrs DOps openFile)

def ne53 : Rounding 53 := nearestEven 53 (by norm_num)

/-- A background of 1 and 2, a tone of 90 from channel `k` on and a signal of power `v` in channel 45. -/
def chainChan (k : Int) (v : ℚ) (t : Nat) (c : Int) : ℚ :=
  if c = k + t then 90 else if c = 45 then v else if (c + t) % 2 = 0 then 1 else 2

def chainFile (k : Int) (v : ℚ) : H5Read.File (F32 ne24) where
  dims := [3, 1, 50]
  labels := some ["time", "feed_id", "frequency"]
  nchans := some 50
  sample := fun idx => ⟨chainChan k v (idx.headD 0).toNat (idx.getD 2 0)⟩
  mask := none

theorem chainFile_at (k : Int) (v : ℚ) (t : Nat) (c : Int) :
    (chainFile k v).at t c = ⟨chainChan k v t c⟩ := by
  simp [H5Read.File.at, H5Read.named, chainFile]

def chainSteps : Steps (F32 ne24) ℚ where
  width := fun _ => 1
  sk := sk32
  low := lowSk32
  high := highSk32
  nsk := 1
  dsk := ⟨2⟩
  stat := stat32
  tiny := tinyRate
  zeroDrift := true
  junk := fun _ _ _ => .flag 0

def chainSource (k : Int) (dt : ℚ) : Source ne24 where
  file := chainFile k 900
  attrs := { cadenceAttrs dt with
    nchans := some 50, hdr := { (cadenceAttrs dt).hdr with foff := .fin (-1 / 100) } }

def chainGeom (dt : ℚ) : Geometry := ⟨3, 50, 8400, -1 / 100, 18, 57650 + dt, 50, 1⟩

def chainConfig : Config ne24 Unit where
  ar := ratArith32
  o := exOps ne53
  devOk := fun _ => true
  dev := ()
  fltMin := 0
  junkHit := fun _ => 0
  junk := fun _ => 0
  heap := ⟨fun _ _ => none, 0⟩
  flags := ⟨fun _ _ => none, 0⟩
  fine := 50
  ro := ⟨true, 0, 4, 2⟩
  op := ⟨.connectedComponents, ⟨280⟩, 1⟩

theorem chain_config : chainConfig.Valid ne53 where
  doubles := ⟨fun _ _ => rfl, fun _ _ => rfl, fun _ => rfl, fun _ _ => rfl, fun _ _ => rfl,
    fun _ _ _ => rfl, fun _ => rfl, rfl⟩
  toD := fun _ => rfl
  dev := rfl
  fine := show (0 : Int) ≤ 50 by decide
  method := rfl
  drifts := show (0 : Int) < ((4 : Int) - 0).tdiv 2 by decide
  fltMin := le_refl (0 : ℚ)
  thr := show (0 : ℚ) ≤ 280 by norm_num

theorem chain_drifts (j : Nat)
    (hj : (j : Int) < (chainConfig.ro.high - chainConfig.ro.low).tdiv chainConfig.ro.step) :
    j < 2 ∧ |chainConfig.ro.low + j * chainConfig.ro.step| ≤ 2 := by
  have hr : ((4 : Int) - 0).tdiv 2 = 2 := rfl
  have hj' : (j : Int) < 2 := by rw [← hr]; exact hj
  refine ⟨by omega, ?_⟩
  show |(0 : Int) + j * 2| ≤ 2
  rw [abs_le]; omega

/-- The noise of the file: the samples of the tone and of channel 45 are flagged and do not count. -/
theorem chain_noise {k : Int} (hk : k = 20 ∨ k = 23 ∨ k = 1000) :
    chainSteps.cleanAt (chainFile k 900) 3 50 0 ≠ [] ∧
    7 / 5 ≤ (chainSteps.noiseAt (chainFile k 900) 3 50 0).2.val ∧
    (chainSteps.noiseAt (chainFile k 900) 3 50 0).2.val ≤ 8 / 5 ∧
    28 / 100 ≤ (driftNoise ratArith32 (chainSteps.noiseAt (chainFile k 900) 3 50 0).1 3).val ∧
    (driftNoise ratArith32 (chainSteps.noiseAt (chainFile k 900) 3 50 0).1 3).val ≤ 3 / 10 := by
  have hX : (fun (t : Nat) (c : Int) => (chainFile k 900).at t (50 * 0 + c)) =
      fun t c => (⟨chainChan k 900 t c⟩ : F32 ne24) := by
    funext t c
    rw [chainFile_at, show (50 : Int) * 0 + c = c by ring]
  unfold Steps.noiseAt Steps.cleanAt Steps.flagsAt
  rw [hX]
  rcases hk with rfl | rfl | rfl <;> decide +kernel

theorem chain_fits {k : Int} (hk : k = 20 ∨ k = 23 ∨ k = 1000) (dt : ℚ) :
    ∀ i, 0 ≤ i → i < (chainGeom dt).num →
      chainSteps.Fits (chainFile k 900) (chainGeom dt).T (chainGeom dt).fine i := by
  intro i h0 h1
  have h1' : i < 1 := h1
  obtain rfl : i = 0 := by omega
  have h : FlagRange (fun _ => 1) 1 3 50 1 := ⟨by decide, rfl, by decide, by decide, by decide⟩
  exact ⟨h, (chain_noise hk).1⟩

theorem chain_recording (k : Int) (dt : ℚ) :
    ((chainSource k dt).measured chainSteps (chainGeom dt)).Valid chainConfig (chainGeom dt) where
  bank := ⟨rfl, rfl, rfl, rfl, by norm_num [chainGeom], by norm_num [chainGeom], rfl, rfl, rfl⟩
  start := rfl
  opens := by
    refine ⟨{ cache := fun _ => none, file := some (.ok [3, 1, 50]), pipeline := [], fch1 := .fin 8400
              hdr := (chainSource k dt).attrs.hdr, nchans := 50, fine := 50, num := 1, offset := 0
              ntsteps := 3, duration := (exOps ne53).mul ((exOps ne53).ofInt 3) (.fin 18)
              device := () }, ?_, rfl, rfl⟩
    have hs := H5Read.shape_usual (chainFile k 900) 3 50 rfl rfl rfl
    show openFile _ _ _ (H5Shape.getDataShape (chainFile k 900).toDataset) _ = _
    rw [hs]
    rfl
  searches := by
    refine ⟨by norm_num [chainGeom], by norm_num [chainConfig], fun i hi => ?_, Or.inr fun i hi => ?_⟩
    · have h1 := (chain_drifts i hi).2
      refine ⟨lt_of_le_of_lt h1 (by norm_num), ?_⟩
      show _ ≤ (50 : Int)
      omega
    · exact (chain_drifts i hi).2
  steps := by norm_num [chainGeom]

theorem chain_within {dt : ℚ} (h0 : 0 ≤ dt) (h1 : dt * 86400 ≤ 108) :
    Within chainConfig (chainGeom dt) (57650 * 86400 - 1) (57650 * 86400 + 163) 556 where
  sampled := by norm_num [chainGeom]
  begins := by simp only [Geometry.begins, chainGeom]; linarith
  ends := by simp only [Geometry.begins, chainGeom]; push_cast; linarith
  date := by
    simp only [Geometry.begins, chainGeom]
    rw [abs_le]; constructor <;> linarith
  band := by norm_num [chainGeom, abs_of_pos, abs_of_neg]
  drifts := fun j hj => by
    have hj1 : j ≤ 1 := by have := (chain_drifts j hj).1; omega
    show |((((0 : Int) + j * 2 : Int) : ℚ)) * (-1 / 100) * 1000000 / (((3 : Nat) - 1 : ℚ) * 18)| ≤ 556
    have : (j : ℚ) ≤ 1 := by exact_mod_cast hj1
    have : (0 : ℚ) ≤ j := by positivity
    push_cast
    rw [abs_le]
    constructor <;> linarith

theorem chainChan_low {k : Int} {v : ℚ} {t : Nat} {c : Int} (h1 : c ≠ k + t) (h2 : c ≠ 45) :
    0 ≤ chainChan k v t c ∧ chainChan k v t c ≤ 2 := by
  unfold chainChan
  rw [if_neg h1, if_neg h2]
  split <;> norm_num

/-- Channels away from the tone and from channel 45 are quiet. -/
theorem chain_quiet {k a e : Int} (hk : k = 20 ∨ k = 23 ∨ k = 1000) (he : e ≤ 40)
    (hfar : e + 4 ≤ k ∨ k + 2 < a - 4) :
    QuietBand chainConfig.ar (fun t m => (chainFile k 900).at t (50 * 0 + m)) (50 : Int).toNat 3
      chainConfig.ro (chainSteps.noiseAt (chainFile k 900) 3 50 0).1
      (chainSteps.noiseAt (chainFile k 900) 3 50 0).2 chainConfig.op (a - 50 * 0) (e - 50 * 0) := by
  obtain ⟨-, n1, n2, n3, n4⟩ := chain_noise hk
  have h140 : (chainConfig.op.thr / 2).val = 140 := by
    show rne 24 (280 / 2) = 140
    decide +kernel
  refine QuietBand.of_level (b := 2) (S := 2) (by norm_num) (by norm_num)
    (fun i hi => (chain_drifts i hi).2) (by norm_num) ?_ ?_ (show (0 : ℚ) ≤ 280 by norm_num)
    (lt_of_lt_of_le (by norm_num) n3) ?_
  · intro t ht c h0 h1
    show 0 ≤ ((chainFile k 900).at t (50 * 0 + c)).val
    rw [chainFile_at]
    show 0 ≤ chainChan k 900 t (50 * 0 + c)
    unfold chainChan
    split_ifs <;> norm_num
  · intro t ht c h0 h1 h2 h3
    show ((chainFile k 900).at t (50 * 0 + c)).val ≤ 2
    rw [chainFile_at]
    exact (chainChan_low (by omega) (by omega)).2
  · rw [h140]
    change (2 : ℚ) * (1 + 1 / 4096) ≤ (chainSteps.noiseAt (chainFile k 900) 3 50 0).2.val +
      140 * (driftNoise ratArith32 (chainSteps.noiseAt (chainFile k 900) 3 50 0).1 3).val * (1 - 1 / 4096)
    linarith

/-- Lines that start below channel 15 or from channel 32 on stay away from the tone. -/
theorem chain_far {dt : ℚ} (h0 : 0 ≤ dt) (h1 : dt * 86400 ≤ 108) :
    FarOutside chainConfig (chainGeom dt) (8399800000 + 5000 / 9 * (57650 * 86400)) (-5000 / 9)
      (57650 * 86400 - 1) (57650 * 86400 + 163)
      (5100 + 2 * (1 + 139 / 1000000 * ((57650 * 86400 + 163) - (57650 * 86400 - 1)))) 0 15 32 := by
  intro m m0 m1 hout j hj t ht0 ht1
  have hj2 := (chain_drifts j hj).1
  show _ ≤ |(8400 + -1 / 100 * (m : ℚ)) * 1000000 + ((((0 : Int) + j * 2 : Int) : ℚ)) * (-1 / 100) *
    1000000 / (((3 : Nat) - 1 : ℚ) * 18) * (t - (57650 + dt) * 86400) - (8399800000 + 5000 / 9 *
      (57650 * 86400) + -5000 / 9 * t)|
  rw [le_abs]
  rcases hout with hout | hout
  · left
    have : m ≤ 14 := by omega
    have hm : (m : ℚ) ≤ 14 := by exact_mod_cast this
    interval_cases j <;> push_cast <;> linarith
  · right
    have hm : (32 : ℚ) ≤ m := by exact_mod_cast hout
    interval_cases j <;> push_cast <;> linarith

theorem chain_tone {k : Int} (hk : k = 20 ∨ k = 23 ∨ k = 1000) (hk' : k ≤ 23) :
    HasTone32 (chainFile k 2) 3 (50 * 0) (50 * (0 + 1)) k 2 (fun t => k + t) 90
      (halfLevel (chainSteps.noiseAt (chainFile k 900) 3 50 0).2.val 280
        (driftNoise ratArith32 (chainSteps.noiseAt (chainFile k 900) 3 50 0).1 3).val) := by
  obtain ⟨-, n1, n2, n3, n4⟩ := chain_noise hk
  have hrest : ∀ (t : Nat) (c : Int), c ≠ k + t → 0 ≤ ((chainFile k 2).at t c).val ∧
      ((chainFile k 2).at t c).val ≤ 2 := fun t c hc => by
    rw [chainFile_at]
    show 0 ≤ chainChan k 2 t c ∧ chainChan k 2 t c ≤ 2
    unfold chainChan
    rw [if_neg hc]
    split_ifs <;> norm_num
  refine ⟨⟨fun t _ => ?_⟩, by omega, by omega, fun t ht => ?_, fun t ht c _ _ hne => ?_, fun δ hδ => ?_⟩
  · push_cast
    rw [show ((k : ℚ) + (t : ℚ) - (k + 2 * t / ((3 : ℚ) - 1))) = 0 by ring]
    norm_num
  · rw [chainFile_at]
    simp only [chainChan, if_true]
    norm_num
  · have := hrest t c hne
    exact ⟨this.1, by linarith [this.2]⟩
  · refine mean_le (by norm_num) (b := 2) (fun t ht => ?_) ?_
    · split
      · exact (hrest t _ (by omega)).2
      · norm_num
    · unfold halfLevel
      linarith

/-- The tone from channel `20 + 3 * n` on is the signal after `54 * n` seconds. -/
theorem chain_observes {k : Int} {dt : ℚ} (hk : k = 20 ∨ k = 23) (h0 : 0 ≤ dt)
    (h1 : dt * 86400 ≤ 108) (hdt : (k : ℚ) = 20 + dt * 4800) :
    ObservesAll chainConfig chainSteps (chainSource k dt) (chainGeom dt)
      (8399800000 + 5000 / 9 * (57650 * 86400)) (-5000 / 9) (1 - 1) (139 / 1000000 - 556 / 4000000)
      (57650 * 86400 - 1) (57650 * 86400 + 163)
      (5100 + 2 * (1 + 139 / 1000000 * ((57650 * 86400 + 163) - (57650 * 86400 - 1)))) := by
  have hk3 : k = 20 ∨ k = 23 ∨ k = 1000 := by omega
  have hk' : k ≤ 23 := by omega
  obtain ⟨-, n1, n2, n3, n4⟩ := chain_noise hk3
  have hsum : (∑ t ∈ Finset.range 3, ((chainFile k 2).at t (k + t)).val) = 270 := by
    simp only [chainFile_at, chainChan, if_true, Finset.sum_range_succ, Finset.sum_range_zero]
    norm_num
  refine ⟨0, k, 2, 15, 32, by norm_num, by norm_num [chainGeom], ⟨(chainFile k 2).sample, 2,
    ?_, by omega, by norm_num [chainConfig], fun j hj => (chain_drifts j hj).2, ?_, ?_,
    ?_⟩, ⟨2, fun j hj => (chain_drifts j hj).2, ?_⟩, ?_, ?_, ?_, chain_far h0 h1, ?_⟩
  · show OneTone _ (chainFile k 2) 3 50 0 _ _ _ _ k 2
    refine C144_weak_tone_alone (j := 1) (ch := fun t => k + t) (p := 90) ratArith32
      (by norm_num) (by norm_num) (by norm_num)
      (show (1 : Int) < ((4 : Int) - 0).tdiv 2 by decide) rfl
      (by norm_num [chainConfig]) (by norm_num) _
      (chain_tone hk3 hk') ⟨?_, ?_⟩ (lt_of_lt_of_le (by norm_num) n3) ?_ ?_
    · exact le_trans (by norm_num) n1
    · exact le_trans n2 (by norm_num)
    · show (280 : ℚ) * (1 + 1 / 512) < ((∑ t ∈ Finset.range 3, ((chainFile k 2).at t (k + t)).val) /
        (3 : Nat) - (chainSteps.noiseAt (chainFile k 900) 3 50 0).2.val) /
          (driftNoise ratArith32 (chainSteps.noiseAt (chainFile k 900) 3 50 0).1 3).val
      rw [hsum, lt_div_iff₀ (lt_of_lt_of_le (by norm_num) n3)]
      push_cast
      linarith
    · show ((∑ t ∈ Finset.range 3, ((chainFile k 2).at t (k + t)).val) - 90 / 2) / (3 : Nat) -
        (chainSteps.noiseAt (chainFile k 900) 3 50 0).2.val + 90 / 2048 ≤ (280 : ℚ) *
          (driftNoise ratArith32 (chainSteps.noiseAt (chainFile k 900) 3 50 0).1 3).val
      rw [hsum]
      push_cast
      linarith
  · intro t ht c c0 c1
    have hd : chainConfig.op.dist = 1 := rfl
    rw [hd] at c0 c1
    show (chainFile k 900).at t c = (chainFile k 2).at t c
    rw [chainFile_at, chainFile_at]
    unfold chainChan
    rw [if_neg (c := c = 45) (by omega), if_neg (c := c = 45) (by omega)]
  · exact chain_quiet hk3 (a := 15 - 1) (e := 15) (by norm_num) (by omega)
  · exact chain_quiet hk3 (a := 32) (e := 32 + 1) (by norm_num) (by omega)
  · intro c c0 c1 c2 c3
    have hX : (fun (t : Nat) (c : Int) => (chainFile k 900).at t (50 * 0 + c)) =
        fun t c => (⟨chainChan k 900 t c⟩ : F32 ne24) := by
      funext t c
      rw [chainFile_at, show (50 : Int) * 0 + c = c by ring]
    refine ⟨show (1 : Int) ≤ c by omega, show c < (50 : Int) - (1 + 1) by omega, ?_⟩
    show lowSk32 (Flag.skOf sk32 1 3 ⟨2⟩ (onIdx fun t c => (chainFile k 900).at t (50 * 0 + c))
      (column 3 c)) = false
    rw [hX]
    have h11 : 11 ≤ c := by omega
    have h35 : c ≤ 35 := by omega
    clear c0 c1 c2 c3
    rcases hk with rfl | rfl <;> interval_cases c <;> decide +kernel
  · intro _ q hq
    have hrate : (chainGeom dt).rate 2 = -5000 / 9 := by
      show ((2 : Int) : ℚ) * (-1 / 100) * 1000000 / (((3 : Nat) - 1 : ℚ) * 18) = _
      norm_num
    rw [hrate, abs_le] at hq
    show decide (|q| < 1 / 1000000) = false
    rw [decide_eq_false_iff_not, not_lt, le_abs]
    right
    have h := hq.2
    norm_num [abs_of_neg] at h
    linarith
  · show |(8400 + -1 / 100 * (k : ℚ)) * 1000000 - (8399800000 + 5000 / 9 * (57650 * 86400) +
      -5000 / 9 * ((57650 + dt) * 86400))| ≤ 1 - 1
    rw [hdt, show (8400 + -1 / 100 * (20 + dt * 4800)) * 1000000 - (8399800000 + 5000 / 9 *
      (57650 * 86400) + -5000 / 9 * ((57650 + dt) * 86400)) = (0 : ℚ) by ring]
    norm_num
  · show |((2 : Int) : ℚ) * (-1 / 100) * 1000000 / (((3 : Nat) - 1 : ℚ) * 18) - -5000 / 9| ≤ _
    norm_num
  · intro i h0 h1 hne
    have h1' : i < 1 := h1
    omega

/-- The hypotheses of `C150_signal_all_steps_partial` are met: the tone, observed twice and absent from
the recording of another target, is reported as one event of two hits. -/
example : ∃ es h₁ h₂, searchCadenceAll ne53 chainConfig chainSteps
        [[chainSource 20 0, chainSource 23 (1 / 1600)], [chainSource 1000 (1 / 800)]] = .ok es ∧
      (es.map File.Event.hits).filter (fun l => l.any (measures (8399800000 + 5000 / 9 * (57650 * 86400))
        (-5000 / 9) 1 (139 / 1000000))) = [[h₁, h₂]] := by
  obtain ⟨es, hs, e1, e2, e3⟩ := C150_signal_all_steps_partial chain_config chainSteps
    (8399800000 + 5000 / 9 * (57650 * 86400)) (-5000 / 9) 1 (139 / 1000000) (57650 * 86400 - 1)
    (57650 * 86400 + 163) 556
    [(chainSource 20 0, chainGeom 0), (chainSource 23 (1 / 1600), chainGeom (1 / 1600))]
    [[(chainSource 1000 (1 / 800), chainGeom (1 / 800))]] (by
      intro x hx
      simp only [List.flatten_cons, List.flatten_nil, List.append_nil, List.cons_append, List.nil_append,
        List.mem_cons, List.not_mem_nil, or_false] at hx
      rcases hx with rfl | rfl | rfl
      · exact ⟨chain_recording .., chain_within (by norm_num) (by norm_num), chain_fits (by norm_num) _⟩
      · exact ⟨chain_recording .., chain_within (by norm_num) (by norm_num), chain_fits (by norm_num) _⟩
      · exact ⟨chain_recording .., chain_within (by norm_num) (by norm_num), chain_fits (by norm_num) _⟩)
    (by simp) (by simp) (by norm_num) (by norm_num) (by norm_num) (by norm_num)
    (by norm_num [abs_of_neg]) (by norm_num [abs_of_neg]) (by norm_num [abs_of_neg]) (by
      intro x hx
      simp only [List.mem_cons, List.not_mem_nil, or_false] at hx
      rcases hx with rfl | rfl
      · exact chain_observes (by norm_num) (by norm_num) (by norm_num) (by norm_num)
      · exact chain_observes (by norm_num) (by norm_num) (by norm_num) (by norm_num)) (by
      intro x hx i h0 h1
      simp only [List.flatten_cons, List.flatten_nil, List.append_nil, List.mem_cons, List.not_mem_nil,
        or_false] at hx
      subst hx
      have h1' : i < 1 := h1
      obtain rfl : i = 0 := by omega
      exact Or.inr ⟨15, 32, by norm_num, by norm_num [chainConfig],
        chain_quiet (by norm_num) (by norm_num) (by norm_num), chain_far (by norm_num) (by norm_num)⟩)
  cases e3 with
  | cons _ e3 =>
    cases e3 with
    | cons _ e3 =>
      cases e3
      exact ⟨es, _, _, e1, e2⟩

end Bliss.Event
