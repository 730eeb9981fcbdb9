import Verif.Event.EndToEnd
import Verif.Hit.SingleTone

/-!
# A cadence that meets the hypotheses of C144

Two recordings of a drifting tone, 54 s apart, and a recording of another target without it.
-/

namespace Bliss.Event

open Bliss.Hit
open Bliss.Float (Rounding)
open Bliss.Drift (Fl)
open Bliss.Scan (Attrs openFile)

/-- A file of 3 spectra of 16 channels with a tone from channel `k` on and a background of 1/8. -/
def cadenceFile (R : Rounding 24) (k : Int) : H5Read.File (F32 R) where
  dims := [3, 1, 16]
  labels := some ["time", "feed_id", "frequency"]
  nchans := some 16
  sample := fun idx => ⟨if idx.getD 2 0 = k + idx.headD 0 then 11 - idx.headD 0 else 1 / 8⟩
  mask := none

theorem cadenceFile_at (R : Rounding 24) (k t c : Int) :
    ((cadenceFile R k).at t c).val = if c = k + t then 11 - (t : ℚ) else 1 / 8 := by
  simp [H5Read.File.at, H5Read.named, cadenceFile]

theorem cadenceFile_tone (R : Rounding 24) {k : Int} (hk : 8 ≤ k ∧ k ≤ 13) {thr noise : ℚ}
    (hthr : 0 ≤ thr) (hn : 0 ≤ noise) :
    HasTone32 (cadenceFile R k) 3 (8 * 1) (8 * (1 + 1)) k 2 (fun t => k + t) 9
      (halfLevel (1 / 4) thr noise) := by
  refine .of_background (by norm_num) (by norm_num) hthr hn ⟨fun t _ => ?_⟩ (by omega) (by omega)
    (fun t ht => ?_) (fun t ht c _ _ hne => ?_)
  · push_cast
    rw [show ((k : ℚ) + (t : ℚ) - (k + 2 * t / ((3 : ℚ) - 1))) = 0 by ring]
    norm_num
  · rw [cadenceFile_at, if_pos rfl]
    have h1 : t ≤ 2 := by omega
    have : (t : ℚ) ≤ 2 := by exact_mod_cast h1
    have : (0 : ℚ) ≤ t := by positivity
    push_cast
    constructor <;> linarith
  · rw [cadenceFile_at, if_neg hne]
    norm_num

/-- Their attributes; the recording starts `dt` days after the first. -/
def cadenceAttrs (dt : ℚ) : Attrs Fl :=
  { toneAttrs with hdr := { toneAttrs.hdr with tstart := .fin (57650 + dt) } }

def cadenceRec (R : Rounding 24) (k : Int) (dt : ℚ) : Recording R :=
  ⟨cadenceFile R k, cadenceAttrs dt, fun _ => (⟨1⟩, ⟨1 / 4⟩)⟩

def cadenceGeom (dt : ℚ) : Geometry := ⟨3, 16, 8400, -1 / 1000, 18, 57650 + dt, 8, 2⟩

def cadenceConfig (R24 : Rounding 24) (R53 : Rounding 53) : Config R24 Unit where
  ar := exArith32 R24 R53
  o := exOps R53
  devOk := fun _ => true
  dev := ()
  fltMin := 0
  junkHit := fun _ => 0
  junk := fun _ => 0
  heap := ⟨fun _ _ => none, 0⟩
  flags := ⟨fun _ _ => none, 0⟩
  fine := 8
  ro := ⟨true, -2, 3, 1⟩
  op := ⟨.connectedComponents, ⟨9⟩, 1⟩

theorem cadence_config (R24 : Rounding 24) (R53 : Rounding 53) : (cadenceConfig R24 R53).Valid R53 where
  doubles := exDoubles32 R24 R53
  toD := fun _ => rfl
  dev := rfl
  fine := show (0 : Int) ≤ 8 by decide
  method := rfl
  drifts := show (0 : Int) < ((3 : Int) - -2).tdiv 1 by decide
  fltMin := le_refl (0 : ℚ)
  thr := show (0 : ℚ) ≤ 9 by norm_num

theorem cadence_recording (R24 : Rounding 24) (R53 : Rounding 53) (k : Int) (dt : ℚ) :
    (cadenceRec R24 k dt).Valid (cadenceConfig R24 R53) (cadenceGeom dt) where
  bank := ⟨rfl, rfl, rfl, rfl, by norm_num [cadenceGeom], by norm_num [cadenceGeom], rfl, rfl, rfl⟩
  start := rfl
  opens := by
    refine ⟨{ cache := fun _ => none, file := some (.ok [3, 1, 16]), pipeline := [], fch1 := .fin 8400
              hdr := (cadenceAttrs dt).hdr, nchans := 16, fine := 8, num := 2, offset := 0, ntsteps := 3
              duration := (exOps R53).mul ((exOps R53).ofInt 3) (.fin 18), device := () }, ?_, rfl, rfl⟩
    have hs := H5Read.shape_usual (cadenceFile R24 k) 3 16 rfl rfl rfl
    show openFile _ _ _ (H5Shape.getDataShape (cadenceFile R24 k).toDataset) _ = _
    rw [hs]
    rfl
  searches := by
    have hr : ((3 : Int) - (-2)).tdiv 1 = 5 := rfl
    refine ⟨by norm_num [cadenceGeom], by norm_num [cadenceConfig], fun i hi => ?_, Or.inr fun i hi => ?_⟩
    · have hi' : (i : Int) < 5 := by rw [← hr]; exact hi
      have h1 : |(-2 : Int) + i * 1| ≤ 2 := by rw [abs_le]; omega
      refine ⟨lt_of_le_of_lt h1 (by norm_num), ?_⟩
      show 2 * |(-2 : Int) + i * 1| ≤ 8
      omega
    · have hi' : (i : Int) < 5 := by rw [← hr]; exact hi
      have h1 : |(-2 : Int) + i * 1| ≤ 2 := by rw [abs_le]; omega
      exact h1
  steps := by norm_num [cadenceGeom]

theorem cadence_within (R24 : Rounding 24) (R53 : Rounding 53) {dt : ℚ} (h0 : 0 ≤ dt)
    (h1 : dt * 86400 ≤ 108) :
    Within (cadenceConfig R24 R53) (cadenceGeom dt) (57650 * 86400 - 1) (57650 * 86400 + 163) 56 where
  sampled := by norm_num [cadenceGeom]
  begins := by simp only [Geometry.begins, cadenceGeom]; linarith
  ends := by simp only [Geometry.begins, cadenceGeom]; push_cast; linarith
  date := by
    simp only [Geometry.begins, cadenceGeom]
    rw [abs_le]; constructor <;> linarith
  band := by norm_num [cadenceGeom, abs_of_pos, abs_of_neg]
  drifts := fun j hj => by
    have hr : ((3 : Int) - (-2)).tdiv 1 = 5 := rfl
    have hj' : (j : Int) < 5 := by rw [← hr]; exact hj
    have hj4 : j ≤ 4 := by omega
    show |((((-2 : Int) + j * 1 : Int) : ℚ)) * (-1 / 1000) * 1000000 / (((3 : Nat) - 1 : ℚ) * 18)| ≤ 56
    have : (j : ℚ) ≤ 4 := by exact_mod_cast hj4
    have : (0 : ℚ) ≤ j := by positivity
    push_cast
    rw [abs_le]
    constructor <;> linarith

/-- A part of the file without the tone is quiet. -/
theorem cadence_quiet (R24 : Rounding 24) (R53 : Rounding 53) {k : Int} {dt f r t0 t1 K : ℚ} {i : Int}
    (h : ∀ t : Nat, t < 3 → ∀ c : Int, 8 * i ≤ c → c < 8 * (i + 1) → c ≠ k + t) :
    Quiet (cadenceConfig R24 R53) (cadenceRec R24 k dt) (cadenceGeom dt) f r t0 t1 K i := by
  left
  refine C144_silent_channel (exArith32 R24 R53) (T := 3) (by norm_num) (by norm_num)
    (show (0 : ℚ) ≤ 1 / 4 by norm_num) (by simp [driftNoise, exArith32, cadenceRec]) _
    (show (0 : ℚ) ≤ 9 by norm_num) ?_
  intro t ht c h0 h1
  have hc : c < 8 := h1
  have := cadenceFile_at R24 k t (8 * i + c)
  rw [if_neg (h t ht _ (by omega) (by omega))] at this
  show 0 ≤ ((cadenceFile R24 k).at t (8 * i + c)).val ∧
    ((cadenceFile R24 k).at t (8 * i + c)).val * (1 + 1 / 4096) ≤ 1 / 4 + 9 * 1 * (1 - 1 / 4096)
  rw [this]
  norm_num

/-- The tone from channel `10 + 3 * n` on is the signal after `54 * n` seconds. -/
theorem cadence_observes (R24 : Rounding 24) (R53 : Rounding 53) {k : Int} {dt t0 t1 K : ℚ}
    (hk : 8 ≤ k ∧ k ≤ 13) (hdt : (k : ℚ) = 10 + dt * 4800) :
    Observes (cadenceConfig R24 R53) (cadenceRec R24 k dt) (cadenceGeom dt)
      (8399990000 + 500 / 9 * (57650 * 86400)) (-500 / 9) (1 - 1) (14 / 1000000 - 56 / 4000000) t0 t1 K := by
  have hsum : (∑ t ∈ Finset.range 3, ((cadenceFile R24 k).at t (k + t)).val) = 30 := by
    simp only [cadenceFile_at, if_true, Finset.sum_range_succ, Finset.sum_range_zero]
    norm_num
  refine ⟨1, k, 2, by norm_num, by norm_num [cadenceGeom], ?_, ?_, ?_, ?_⟩
  · refine C144_weak_tone_alone (j := 4) (ch := fun t => k + t) (p := 9) (exArith32 R24 R53)
      (by norm_num [cadenceGeom]) (by norm_num [cadenceGeom]) (by norm_num [cadenceGeom])
      (show (4 : Int) < ((3 : Int) - -2).tdiv 1 by decide) rfl
      (by norm_num [cadenceConfig]) (by norm_num) _
      (cadenceFile_tone R24 hk (show (0 : ℚ) ≤ 9 by norm_num) (by simp [driftNoise, exArith32]))
      (by norm_num [cadenceRec]) (by simp [driftNoise, exArith32, cadenceRec]) ?_ ?_
    · show (9 : ℚ) * (1 + 1 / 512) < ((∑ t ∈ Finset.range 3, ((cadenceFile R24 k).at t (k + t)).val) /
        (3 : Nat) - 1 / 4) / (1 : ℚ)
      rw [hsum]; norm_num
    · show ((∑ t ∈ Finset.range 3, ((cadenceFile R24 k).at t (k + t)).val) - 9 / 2) / (3 : Nat) - 1 / 4 +
        9 / 2048 ≤ (9 : ℚ) * 1
      rw [hsum]; norm_num
  · show |(8400 + -1 / 1000 * (k : ℚ)) * 1000000 - (8399990000 + 500 / 9 * (57650 * 86400) +
      -500 / 9 * ((57650 + dt) * 86400))| ≤ 1 - 1
    rw [hdt, show (8400 + -1 / 1000 * (10 + dt * 4800)) * 1000000 - (8399990000 + 500 / 9 *
      (57650 * 86400) + -500 / 9 * ((57650 + dt) * 86400)) = (0 : ℚ) by ring]
    norm_num
  · show |((2 : Int) : ℚ) * (-1 / 1000) * 1000000 / (((3 : Nat) - 1 : ℚ) * 18) - -500 / 9| ≤ _
    norm_num
  · intro i h0 h1 hne
    have h1' : i < 2 := h1
    exact cadence_quiet R24 R53 fun t ht c h2 h3 => by omega

/-- The hypotheses of `C144_signal_reported_partial` are met: a tone that drifts by -500/9 Hz/s, observed
twice and absent from the recording of another target, is reported as one event of two hits. -/
example (R24 : Rounding 24) (R53 : Rounding 53) :
    ∃ es h₁ h₂, searchCadence R53 (cadenceConfig R24 R53)
        [[cadenceRec R24 10 0, cadenceRec R24 13 (1 / 1600)], [cadenceRec R24 100 (1 / 800)]] = .ok es ∧
      (es.map File.Event.hits).filter (fun l => l.any (measures (8399990000 + 500 / 9 * (57650 * 86400))
        (-500 / 9) 1 (14 / 1000000))) = [[h₁, h₂]] := by
  obtain ⟨es, hs, e1, e2, e3⟩ := C144_signal_reported_partial (cadence_config R24 R53)
    (8399990000 + 500 / 9 * (57650 * 86400)) (-500 / 9) 1 (14 / 1000000) (57650 * 86400 - 1)
    (57650 * 86400 + 163) 56
    [(cadenceRec R24 10 0, cadenceGeom 0), (cadenceRec R24 13 (1 / 1600), cadenceGeom (1 / 1600))]
    [[(cadenceRec R24 100 (1 / 800), cadenceGeom (1 / 800))]] (by
      intro x hx
      simp only [List.flatten_cons, List.flatten_nil, List.append_nil, List.cons_append, List.nil_append,
        List.mem_cons, List.not_mem_nil, or_false] at hx
      rcases hx with rfl | rfl | rfl
      · exact ⟨cadence_recording .., cadence_within R24 R53 (by norm_num) (by norm_num)⟩
      · exact ⟨cadence_recording .., cadence_within R24 R53 (by norm_num) (by norm_num)⟩
      · exact ⟨cadence_recording .., cadence_within R24 R53 (by norm_num) (by norm_num)⟩)
    (by simp) (by simp) (by norm_num) (by norm_num) (by norm_num) (by norm_num)
    (by norm_num [abs_of_neg]) (by norm_num [abs_of_neg]) (by norm_num [abs_of_neg]) (by
      intro x hx
      simp only [List.mem_cons, List.not_mem_nil, or_false] at hx
      rcases hx with rfl | rfl
      · exact cadence_observes R24 R53 (by norm_num) (by norm_num)
      · exact cadence_observes R24 R53 (by norm_num) (by norm_num)) (by
      intro x hx i h0 h1
      simp only [List.flatten_cons, List.flatten_nil, List.append_nil, List.mem_cons, List.not_mem_nil,
        or_false] at hx
      subst hx
      have h1' : i < 2 := h1
      exact cadence_quiet R24 R53 fun t ht c h2 h3 => by omega)
  cases e3 with
  | cons _ e3 =>
    cases e3 with
    | cons _ e3 =>
      cases e3
      exact ⟨es, _, _, e1, e2⟩

end Bliss.Event
