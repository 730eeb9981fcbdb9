import Verif.Event.EndToEndExample

/-!
# A cadence with other signals that meets the hypotheses of C144

The tone of `EndToEndExample` in a coarse channel of 200 channels that also holds, in every recording, a
signal a hundred times as strong in channel 20.
-/

namespace Bliss.Event

open Bliss.Hit
open Bliss.Float (Rounding)
open Bliss.Drift (Fl)
open Bliss.Scan (Attrs openFile)

/-- A file of 3 spectra of 200 channels with a tone from channel `k` on, a signal of power `v` in channel
20 and a background of 1/8. -/
def amongFile (R : Rounding 24) (k : Int) (v : ℚ) : H5Read.File (F32 R) where
  dims := [3, 1, 200]
  labels := some ["time", "feed_id", "frequency"]
  nchans := some 200
  sample := fun idx => ⟨if idx.getD 2 0 = k + idx.headD 0 then 11 - idx.headD 0 else
    if idx.getD 2 0 = 20 then v else 1 / 8⟩
  mask := none

theorem amongFile_at (R : Rounding 24) (k : Int) (v : ℚ) (t c : Int) :
    ((amongFile R k v).at t c).val = if c = k + t then 11 - (t : ℚ) else if c = 20 then v else 1 / 8 := by
  simp [H5Read.File.at, H5Read.named, amongFile]

theorem amongFile_tone (R : Rounding 24) {k : Int} (hk : 100 ≤ k ∧ k ≤ 103) {thr noise : ℚ}
    (hthr : 0 ≤ thr) (hn : 0 ≤ noise) :
    HasTone32 (amongFile R k (1 / 8)) 3 (200 * 0) (200 * (0 + 1)) k 2 (fun t => k + t) 9
      (halfLevel (1 / 4) thr noise) := by
  refine .of_background (by norm_num) (by norm_num) hthr hn ⟨fun t _ => ?_⟩ (by omega) (by omega)
    (fun t ht => ?_) (fun t ht c _ _ hne => ?_)
  · push_cast
    rw [show ((k : ℚ) + (t : ℚ) - (k + 2 * t / ((3 : ℚ) - 1))) = 0 by ring]
    norm_num
  · rw [amongFile_at, if_pos rfl]
    have h1 : t ≤ 2 := by omega
    have : (t : ℚ) ≤ 2 := by exact_mod_cast h1
    have : (0 : ℚ) ≤ t := by positivity
    push_cast
    constructor <;> linarith
  · rw [amongFile_at, if_neg hne, ite_self]
    norm_num

def amongAttrs (dt : ℚ) : Attrs Fl := { cadenceAttrs dt with nchans := some 200 }

def amongRec (R : Rounding 24) (k : Int) (dt : ℚ) : Recording R :=
  ⟨amongFile R k 1000, amongAttrs dt, fun _ => (⟨1⟩, ⟨1 / 4⟩)⟩

def amongGeom (dt : ℚ) : Geometry := ⟨3, 200, 8400, -1 / 1000, 18, 57650 + dt, 200, 1⟩

def amongConfig (R24 : Rounding 24) (R53 : Rounding 53) : Config R24 Unit :=
  { cadenceConfig R24 R53 with fine := 200 }

theorem among_config (R24 : Rounding 24) (R53 : Rounding 53) : (amongConfig R24 R53).Valid R53 where
  doubles := exDoubles32 R24 R53
  toD := fun _ => rfl
  dev := rfl
  fine := show (0 : Int) ≤ 200 by decide
  method := rfl
  drifts := show (0 : Int) < ((3 : Int) - -2).tdiv 1 by decide
  fltMin := le_refl (0 : ℚ)
  thr := show (0 : ℚ) ≤ 9 by norm_num

theorem among_drifts (R24 : Rounding 24) (R53 : Rounding 53) (j : Nat)
    (hj : (j : Int) < ((amongConfig R24 R53).ro.high - (amongConfig R24 R53).ro.low).tdiv
      (amongConfig R24 R53).ro.step) :
    j < 5 ∧ |(amongConfig R24 R53).ro.low + j * (amongConfig R24 R53).ro.step| ≤ 2 := by
  have hr : ((3 : Int) - (-2)).tdiv 1 = 5 := rfl
  have hj' : (j : Int) < 5 := by rw [← hr]; exact hj
  refine ⟨by omega, ?_⟩
  show |(-2 : Int) + j * 1| ≤ 2
  rw [abs_le]; omega

theorem among_recording (R24 : Rounding 24) (R53 : Rounding 53) (k : Int) (dt : ℚ) :
    (amongRec R24 k dt).Valid (amongConfig R24 R53) (amongGeom dt) where
  bank := ⟨rfl, rfl, rfl, rfl, by norm_num [amongGeom], by norm_num [amongGeom], rfl, rfl, rfl⟩
  start := rfl
  opens := by
    refine ⟨{ cache := fun _ => none, file := some (.ok [3, 1, 200]), pipeline := [], fch1 := .fin 8400
              hdr := (amongAttrs dt).hdr, nchans := 200, fine := 200, num := 1, offset := 0, ntsteps := 3
              duration := (exOps R53).mul ((exOps R53).ofInt 3) (.fin 18), device := () }, ?_, rfl, rfl⟩
    have hs := H5Read.shape_usual (amongFile R24 k 1000) 3 200 rfl rfl rfl
    show openFile _ _ _ (H5Shape.getDataShape (amongFile R24 k 1000).toDataset) _ = _
    rw [hs]
    rfl
  searches := by
    refine ⟨by norm_num [amongGeom], by norm_num [amongConfig, cadenceConfig], fun i hi => ?_,
      Or.inr fun i hi => ?_⟩
    · have h1 := (among_drifts R24 R53 i hi).2
      refine ⟨lt_of_le_of_lt h1 (by norm_num), ?_⟩
      show _ ≤ (200 : Int)
      omega
    · exact (among_drifts R24 R53 i hi).2
  steps := by norm_num [amongGeom]

theorem among_within (R24 : Rounding 24) (R53 : Rounding 53) {dt : ℚ} (h0 : 0 ≤ dt)
    (h1 : dt * 86400 ≤ 108) :
    Within (amongConfig R24 R53) (amongGeom dt) (57650 * 86400 - 1) (57650 * 86400 + 163) 56 where
  sampled := by norm_num [amongGeom]
  begins := by simp only [Geometry.begins, amongGeom]; linarith
  ends := by simp only [Geometry.begins, amongGeom]; push_cast; linarith
  date := by
    simp only [Geometry.begins, amongGeom]
    rw [abs_le]; constructor <;> linarith
  band := by norm_num [amongGeom, abs_of_pos, abs_of_neg]
  drifts := fun j hj => by
    have hj4 : j ≤ 4 := by have := (among_drifts R24 R53 j hj).1; omega
    show |((((-2 : Int) + j * 1 : Int) : ℚ)) * (-1 / 1000) * 1000000 / (((3 : Nat) - 1 : ℚ) * 18)| ≤ 56
    have : (j : ℚ) ≤ 4 := by exact_mod_cast hj4
    have : (0 : ℚ) ≤ j := by positivity
    push_cast
    rw [abs_le]
    constructor <;> linarith

/-- Channels away from the tone and from channel 20 are quiet. -/
theorem among_quiet (R24 : Rounding 24) (R53 : Rounding 53) {k a e : Int} (ha : 30 ≤ a)
    (hfar : e + 4 ≤ k ∨ k + 2 < a - 4) (dt : ℚ) :
    QuietBand (amongConfig R24 R53).ar (fun t m => (amongRec R24 k dt).file.at t (200 * 0 + m))
      (200 : Int).toNat 3 (amongConfig R24 R53).ro ⟨1⟩ ⟨1 / 4⟩ (amongConfig R24 R53).op (a - 200 * 0)
      (e - 200 * 0) := by
  have h92 : ((amongConfig R24 R53).op.thr / 2).val = R24.r (9 / 2) := rfl
  have h4 : (4 : ℚ) ≤ R24.r (9 / 2) := by
    have := R24.mono 4 (9 / 2) (by norm_num)
    have e := R24.int 4 (by norm_num)
    push_cast at e
    rwa [e] at this
  refine QuietBand.of_level (b := 1 / 8) (S := 2) (by norm_num) (by norm_num)
    (fun i hi => (among_drifts R24 R53 i hi).2) (by norm_num) ?_ ?_ (show (0 : ℚ) ≤ 9 by norm_num)
    (show (0 : ℚ) < 1 by norm_num) ?_
  · intro t ht c h0 h1
    show 0 ≤ ((amongFile R24 k 1000).at t (200 * 0 + c)).val
    rw [amongFile_at]
    have h2 : t ≤ 2 := by omega
    have : (t : ℚ) ≤ 2 := by exact_mod_cast h2
    split
    · push_cast; linarith
    · split <;> norm_num
  · intro t ht c h0 h1 h2 h3
    show ((amongFile R24 k 1000).at t (200 * 0 + c)).val ≤ 1 / 8
    rw [amongFile_at, if_neg (by omega), if_neg (by omega)]
  · rw [h92]
    show (1 / 8 : ℚ) * (1 + 1 / 4096) ≤ 1 / 4 + R24.r (9 / 2) * 1 * (1 - 1 / 4096)
    linarith

/-- Lines that start below channel 60 or from channel 150 on stay away from the tone. -/
theorem among_far (R24 : Rounding 24) (R53 : Rounding 53) {dt : ℚ} (h0 : 0 ≤ dt)
    (h1 : dt * 86400 ≤ 108) :
    FarOutside (amongConfig R24 R53) (amongGeom dt) (8399900000 + 500 / 9 * (57650 * 86400)) (-500 / 9)
      (57650 * 86400 - 1) (57650 * 86400 + 163)
      (5100 + 2 * (1 + 14 / 1000000 * ((57650 * 86400 + 163) - (57650 * 86400 - 1)))) 0 60 150 := by
  intro m m0 m1 hout j hj t ht0 ht1
  have hj5 := (among_drifts R24 R53 j hj).1
  show _ ≤ |(8400 + -1 / 1000 * (m : ℚ)) * 1000000 + ((((-2 : Int) + j * 1 : Int) : ℚ)) * (-1 / 1000) *
    1000000 / (((3 : Nat) - 1 : ℚ) * 18) * (t - (57650 + dt) * 86400) - (8399900000 + 500 / 9 * (57650 * 86400) +
      -500 / 9 * t)|
  rw [le_abs]
  rcases hout with hout | hout
  · left
    have : m ≤ 59 := by omega
    have hm : (m : ℚ) ≤ 59 := by exact_mod_cast this
    interval_cases j <;> push_cast <;> linarith
  · right
    have hm : (150 : ℚ) ≤ m := by exact_mod_cast hout
    interval_cases j <;> push_cast <;> linarith

/-- The tone from channel `100 + 3 * n` on is the signal after `54 * n` seconds. -/
theorem among_observes (R24 : Rounding 24) (R53 : Rounding 53) {k : Int} {dt : ℚ}
    (hk : 100 ≤ k ∧ k ≤ 103) (h0 : 0 ≤ dt) (h1 : dt * 86400 ≤ 108) (hdt : (k : ℚ) = 100 + dt * 4800) :
    ObservesAmong (amongConfig R24 R53) (amongRec R24 k dt) (amongGeom dt)
      (8399900000 + 500 / 9 * (57650 * 86400)) (-500 / 9) (1 - 1) (14 / 1000000 - 56 / 4000000)
      (57650 * 86400 - 1) (57650 * 86400 + 163)
      (5100 + 2 * (1 + 14 / 1000000 * ((57650 * 86400 + 163) - (57650 * 86400 - 1)))) := by
  have hsum : (∑ t ∈ Finset.range 3, ((amongFile R24 k (1 / 8)).at t (k + t)).val) = 30 := by
    simp only [amongFile_at, if_true, Finset.sum_range_succ, Finset.sum_range_zero]
    norm_num
  refine ⟨0, k, 2, 60, 150, by norm_num, by norm_num [amongGeom], ⟨(amongFile R24 k (1 / 8)).sample, 2,
    ?_, by omega, by norm_num [amongConfig, cadenceConfig], fun j hj => (among_drifts R24 R53 j hj).2, ?_, ?_,
    ?_⟩, ?_, ?_, among_far R24 R53 h0 h1, ?_⟩
  · show OneTone _ (amongFile R24 k (1 / 8)) 3 200 0 _ _ _ _ k 2
    refine C144_weak_tone_alone (j := 4) (ch := fun t => k + t) (p := 9) (exArith32 R24 R53)
      (by norm_num) (by norm_num) (by norm_num)
      (show (4 : Int) < ((3 : Int) - -2).tdiv 1 by decide) rfl
      (by norm_num [amongConfig, cadenceConfig]) (by norm_num) _
      (amongFile_tone R24 hk (show (0 : ℚ) ≤ 9 by norm_num) (by simp [driftNoise, exArith32]))
      (by norm_num [amongRec]) (by simp [driftNoise, exArith32, amongRec]) ?_ ?_
    · show (9 : ℚ) * (1 + 1 / 512) < ((∑ t ∈ Finset.range 3, ((amongFile R24 k (1 / 8)).at t (k + t)).val) /
        (3 : Nat) - 1 / 4) / (1 : ℚ)
      rw [hsum]; norm_num
    · show ((∑ t ∈ Finset.range 3, ((amongFile R24 k (1 / 8)).at t (k + t)).val) - 9 / 2) / (3 : Nat) -
        1 / 4 + 9 / 2048 ≤ (9 : ℚ) * 1
      rw [hsum]; norm_num
  · intro t ht c c0 c1
    have hd : (amongConfig R24 R53).op.dist = 1 := rfl
    rw [hd] at c0 c1
    show (amongFile R24 k 1000).at t c = (amongFile R24 k (1 / 8)).at t c
    apply F32.ext
    rw [amongFile_at, amongFile_at, if_neg (c := c = 20) (by omega), if_neg (c := c = 20) (by omega)]
  · exact among_quiet R24 R53 (a := 60 - 1) (e := 60) (by norm_num) (by omega) dt
  · exact among_quiet R24 R53 (a := 150) (e := 150 + 1) (by norm_num) (by omega) dt
  · show |(8400 + -1 / 1000 * (k : ℚ)) * 1000000 - (8399900000 + 500 / 9 * (57650 * 86400) +
      -500 / 9 * ((57650 + dt) * 86400))| ≤ 1 - 1
    rw [hdt, show (8400 + -1 / 1000 * (100 + dt * 4800)) * 1000000 - (8399900000 + 500 / 9 *
      (57650 * 86400) + -500 / 9 * ((57650 + dt) * 86400)) = (0 : ℚ) by ring]
    norm_num
  · show |((2 : Int) : ℚ) * (-1 / 1000) * 1000000 / (((3 : Nat) - 1 : ℚ) * 18) - -500 / 9| ≤ _
    norm_num
  · intro i h0 h1 hne
    have h1' : i < 1 := h1
    omega

/-- The hypotheses of `C144_signal_among_others_partial` are met: the tone, observed twice and absent from
the recording of another target, is reported as one event of two hits, although every recording also holds
the strong signal. -/
example (R24 : Rounding 24) (R53 : Rounding 53) :
    ∃ es h₁ h₂, searchCadence R53 (amongConfig R24 R53)
        [[amongRec R24 100 0, amongRec R24 103 (1 / 1600)], [amongRec R24 1000 (1 / 800)]] = .ok es ∧
      (es.map File.Event.hits).filter (fun l => l.any (measures (8399900000 + 500 / 9 * (57650 * 86400))
        (-500 / 9) 1 (14 / 1000000))) = [[h₁, h₂]] := by
  obtain ⟨es, hs, e1, e2, e3⟩ := C144_signal_among_others_partial (among_config R24 R53)
    (8399900000 + 500 / 9 * (57650 * 86400)) (-500 / 9) 1 (14 / 1000000) (57650 * 86400 - 1)
    (57650 * 86400 + 163) 56
    [(amongRec R24 100 0, amongGeom 0), (amongRec R24 103 (1 / 1600), amongGeom (1 / 1600))]
    [[(amongRec R24 1000 (1 / 800), amongGeom (1 / 800))]] (by
      intro x hx
      simp only [List.flatten_cons, List.flatten_nil, List.append_nil, List.cons_append, List.nil_append,
        List.mem_cons, List.not_mem_nil, or_false] at hx
      rcases hx with rfl | rfl | rfl
      · exact ⟨among_recording .., among_within R24 R53 (by norm_num) (by norm_num)⟩
      · exact ⟨among_recording .., among_within R24 R53 (by norm_num) (by norm_num)⟩
      · exact ⟨among_recording .., among_within R24 R53 (by norm_num) (by norm_num)⟩)
    (by simp) (by simp) (by norm_num) (by norm_num) (by norm_num) (by norm_num)
    (by norm_num [abs_of_neg]) (by norm_num [abs_of_neg]) (by norm_num [abs_of_neg]) (by
      intro x hx
      simp only [List.mem_cons, List.not_mem_nil, or_false] at hx
      rcases hx with rfl | rfl
      · exact among_observes R24 R53 (by norm_num) (by norm_num) (by norm_num) (by norm_num)
      · exact among_observes R24 R53 (by norm_num) (by norm_num) (by norm_num) (by norm_num)) (by
      intro x hx i h0 h1
      simp only [List.flatten_cons, List.flatten_nil, List.append_nil, List.mem_cons, List.not_mem_nil,
        or_false] at hx
      subst hx
      have h1' : i < 1 := h1
      obtain rfl : i = 0 := by omega
      exact Or.inr ⟨60, 150, by norm_num, by norm_num [amongConfig, cadenceConfig],
        among_quiet R24 R53 (by norm_num) (by norm_num) _, among_far R24 R53 (by norm_num) (by norm_num)⟩)
  cases e3 with
  | cons _ e3 =>
    cases e3 with
    | cons _ e3 =>
      cases e3
      exact ⟨es, _, _, e1, e2⟩

end Bliss.Event
