import Verif.Gpu.Integrate
import Mathlib.Tactic.FieldSimp
import Mathlib.Algebra.Order.Ring.Rat

/-!
# Properties of the CUDA drift integrator (C81, C82)
-/

namespace Bliss.Gpu

open Bliss.Drift

section
variable {F S : Type} [Zero F] [Add F] [Div F] [IntCast F]

theorem totals_mean (grid : Nat → Int → F) (mask : Nat → Int → UInt8) (p : List (Nat × Int)) :
    (if (totals grid mask p).bins = 0 then 0
      else (totals grid mask p).sum / (((totals grid mask p).bins : Int) : F)) =
      pathMean grid p := by
  rw [totals_eq]
  simp only [pathMean, List.length_eq_zero_iff]

/-- **C81.** Integrating on the GPU: whatever the drift rates and the number of threads, no
execution touches memory outside the arrays, every execution ends, and every complete execution,
in whatever order the threads run, leaves in every cell the mean of the samples of its path that
lie in the band (0 if there are none), in every counter the number of flagged samples of that
path modulo 256, and the input arrays unchanged. -/
theorem C81_gpu_drift_plane {ops : SlopeOps S} {inp : Input F} {grid : Nat → Int → F}
    {mask : Nat → Int → UInt8} (hin : Holds inp grid mask) (hd : DenseViews inp)
    {rates : List (Rate S)} {off : Nat → Nat → Int} (hoff : OffsetsAre ops rates inp.timeSteps off)
    {G : Nat} (hG : 0 < G) :
    let K := gpuIntegrate (F := F) ops inp.numChannels inp.timeSteps rates G
    let s := integrateMem inp rates.length
    ¬ Exec ProgStep K s .ub ∧ Terminates ProgStep K s ∧ (∃ s', Completes ProgStep K s s') ∧
    ∀ s', Completes ProgStep K s s' →
      (∀ (i : Nat) (r : Rate S), rates[i]? = some r → ∀ c < inp.numChannels,
        let p := bandPath inp.numChannels inp.timeSteps (ops.nonneg r.slope) r.desmear.toNat
          (off i) c
        let j : Int := i * inp.numChannels + c
        s' (.plane, j) = some (.inl (pathMean grid p)) ∧
        ∃ l h o : UInt8, s' (.lowsk, j) = some (.inr l) ∧ s' (.highsk, j) = some (.inr h) ∧
          s' (.rolloff, j) = some (.inr o) ∧ l.toNat = pathFlags mask 2 p % 256 ∧
          h.toNat = pathFlags mask 4 p % 256 ∧ o.toNat = pathFlags mask 1 p % 256) ∧
      ∀ j, s' (.spec, j) = s (.spec, j) ∧ s' (.mask, j) = s (.mask, j) := by
  intro K s
  obtain ⟨h1, h2, h3, h4⟩ := gpuIntegrate_spec hin hd hoff hG
  refine ⟨h1, h2, h3, fun s' hs' => ?_⟩
  obtain ⟨h5, h6⟩ := h4 s' hs'
  refine ⟨fun i r hr c hc => ?_, h6⟩
  obtain ⟨h7, h8, h9, h10⟩ := h5 i r hr c hc
  refine ⟨by rw [h7, totals_mean], _, _, _, h8, h9, h10, ?_⟩
  rw [totals_eq]
  simp [UInt8.toNat_ofNat', flagLowSK, flagHighSK, flagRolloff]

end

/-! ## C82: GPU and CPU -/

/-- With offsets that go the way of the drift, a CPU path is the in-band path, except for the
first `-span` cells of a downward drift, which the CPU leaves empty. -/
theorem path_eq_bandPath {N T : Nat} {up : Bool} {span : Int} {d : Nat} {off : Nat → Int}
    {c : Int} (hc : 0 ≤ c) (hcN : c < N)
    (hsign : ∀ t < T, if up then 0 ≤ off t else off t ≤ 0) :
    path N T up span d off c = if up = true ∨ -span ≤ c then bandPath N T up d off c else [] := by
  have key : ∀ t < T, ((List.range d).filterMap fun k =>
      (pathChannel N up span (off t) k c).map fun ch => (t, ch)) =
      if up = true ∨ -span ≤ c then (List.range d).filterMap fun (k : Nat) =>
        let ch := c + if up then off t + k else off t - k
        if 0 ≤ ch ∧ ch < N then some (t, ch) else none else [] := by
    intro t ht
    have hs := hsign t ht
    split
    · rename_i h
      refine List.filterMap_congr fun k _ => ?_
      unfold pathChannel
      cases up with
      | true =>
        simp only [if_true] at hs ⊢
        rw [show c + (off t + (k : Int)) = c + off t + k by ring]
        by_cases h1 : c + off t + k < N
        · rw [if_pos h1, if_pos ⟨by omega, h1⟩]; rfl
        · rw [if_neg h1, if_neg (fun h => h1 h.2)]; rfl
      | false =>
        simp only [Bool.false_eq_true, if_false, false_or] at hs h ⊢
        rw [show c + (off t - (k : Int)) = c + off t - k by ring]
        by_cases h1 : 0 ≤ c + off t - k
        · rw [if_pos ⟨h, h1⟩, if_pos ⟨h1, by omega⟩]; rfl
        · rw [if_neg (fun h => h1 h.2), if_neg (fun h => h1 h.1)]; rfl
    · rename_i h
      push Not at h
      rw [List.filterMap_eq_nil_iff]
      intro k _
      unfold pathChannel
      rw [if_neg h.1, if_neg (fun h' => by omega)]
      rfl
  unfold path bandPath
  split
  · rename_i h
    simp only [List.flatMap]
    congr 1
    refine List.map_congr_left fun t ht => ?_
    rw [key t (List.mem_range.1 ht), if_pos h]
  · rename_i h
    rw [List.flatMap_eq_nil_iff]
    intro t ht
    rw [key t (List.mem_range.1 ht), if_neg h]

section
variable {F : Type} [Field F] [CharZero F] {S : Type}

theorem foldl_div_eq (grid : Nat → Int → F) (d : F) (p : List (Nat × Int)) (x : F) :
    p.foldl (fun acc s => acc + grid s.1 s.2 / d) (x / d) =
      p.foldl (fun acc s => acc + grid s.1 s.2) x / d := by
  induction p generalizing x with
  | nil => rfl
  | cons s p ih => simp only [List.foldl_cons, ← add_div]; exact ih _

/-- The CPU's scaling of a path against the GPU's mean of the same path. -/
theorem scale_eq (grid : Nat → Int → F) {T : Nat} (hT : 0 < T) {d : Int} (hd : 1 ≤ d)
    (p : List (Nat × Int)) :
    pathSum grid d p / ((T : Int) : F) * ((T : F) * (d : F)) = pathMean grid p * (p.length : F) := by
  have hdF : (d : F) ≠ 0 := by exact_mod_cast (by omega : d ≠ 0)
  have hTF : (T : F) ≠ 0 := by exact_mod_cast (by omega : T ≠ 0)
  have h := foldl_div_eq grid (d : F) p 0
  rw [zero_div] at h
  unfold pathSum pathMean
  rw [h]
  split
  · rename_i hp; subst hp; simp
  · rename_i hp
    have hl : ((p.length : Int) : F) ≠ 0 := by
      have : p.length ≠ 0 := fun e => hp (List.length_eq_zero_iff.1 e)
      exact_mod_cast this
    push_cast at hl ⊢
    field_simp

/-- **C82, relation.** In exact arithmetic, for rates the CPU integrator can handle at all, and whose
rounded offsets are the same on both devices (see `C82_offsets_agree_partial`), a cell is related as
follows on the two devices. Unless the drift is downward and the cell is one of the
first `-span`, the counters are equal and the CPU's value is the GPU's value scaled by the
fraction of the path's `T · desmear` samples that lie in the band; so the values are equal when
the whole path does. In the first `-span` cells of a downward drift the CPU reports zeros. -/
theorem C82_gpu_cpu_relation {ops gops : SlopeOps S} {inp : Input F} {grid : Nat → Int → F}
    {mask : Nat → Int → UInt8} (hin : Holds inp grid mask) (hd : DenseViews inp)
    {rates : List (Rate S)} {off : Nat → Nat → Int} (hoff : OffsetsAre ops rates inp.timeSteps off)
    (hgoff : OffsetsAre gops rates inp.timeSteps off)
    (hdir : ∀ (i : Nat) (r : Rate S), rates[i]? = some r →
      gops.nonneg r.slope = ops.nonneg r.slope)
    (hfit : ∀ (i : Nat) (r : Rate S), rates[i]? = some r →
      Fits inp.numChannels inp.timeSteps (ops.nonneg r.slope) r.span r.desmear (off i))
    (hT : 0 < inp.timeSteps) (hdes : ∀ (i : Nat) (r : Rate S), rates[i]? = some r → 1 ≤ r.desmear)
    {G : Nat} {s' : Mem IAddr (ICell F)} (hG : 0 < G)
    (hgpu : Completes ProgStep (gpuIntegrate (F := F) gops inp.numChannels inp.timeSteps rates G)
      (integrateMem inp rates.length) s') :
    ∃ a, integrateCpu ops inp rates = .ok a ∧
      ∀ (i : Nat) (r : Rate S), rates[i]? = some r → ∀ c < inp.numChannels,
        let j : Int := i * inp.numChannels + c
        let n := (bandPath inp.numChannels inp.timeSteps (ops.nonneg r.slope) r.desmear.toNat
          (off i) c).length
        ∃ x y : F, a.plane j = some x ∧ s' (.plane, j) = some (.inl y) ∧
          (ops.nonneg r.slope = true ∨ -r.span ≤ c →
            x * (inp.timeSteps * r.desmear) = y * n ∧
            (n = inp.timeSteps * r.desmear.toNat → x = y) ∧
            s' (.lowsk, j) = (a.lowsk j).map .inr ∧ s' (.highsk, j) = (a.highsk j).map .inr ∧
            s' (.rolloff, j) = (a.rolloff j).map .inr) ∧
          (¬ (ops.nonneg r.slope = true ∨ -r.span ≤ c) →
            x = 0 ∧ a.lowsk j = some 0 ∧ a.highsk j = some 0 ∧ a.rolloff j = some 0) := by
  obtain ⟨a, ha, hcpu⟩ := integrate_rep (hin.raw hd.specOffset hd.rfiOffset) hoff hfit
  refine ⟨a, ha, fun i r hr c hc => ?_⟩
  obtain ⟨hp, hl, hh, ho⟩ := hcpu i r hr c (by omega) (by omega)
  obtain ⟨gp, gl, gh, go⟩ := ((gpuIntegrate_spec hin hd hgoff hG).2.2.2 s' hgpu).1 i r hr c hc
  rw [hdir i r hr] at gp gl gh go
  have hsign : ∀ t < inp.timeSteps,
      if ops.nonneg r.slope = true then 0 ≤ off i t else off i t ≤ 0 := by
    intro t ht
    have := hfit i r hr
    unfold Fits at this
    split at this
    · rename_i h; rw [if_pos h]; exact (this t ht).1
    · rename_i h; rw [if_neg h]; exact (this.2.2 t ht).1
  have hpath := path_eq_bandPath (span := r.span) (d := r.desmear.toNat) (c := (c : Int)) (N := inp.numChannels)
    (by omega) (by omega) hsign
  rw [totals_mean] at gp
  refine ⟨_, _, hp, gp, fun hcase => ?_, fun hcase => ?_⟩
  · rw [if_pos hcase] at hpath
    rw [hpath] at hl hh ho ⊢
    rw [totals_eq] at gl gh go
    have hsc := scale_eq grid hT (hdes i r hr)
      (bandPath inp.numChannels inp.timeSteps (ops.nonneg r.slope) r.desmear.toNat (off i) c)
    refine ⟨hsc, fun hn => ?_, by rw [gl, hl]; rfl, by rw [gh, hh]; rfl, by rw [go, ho]; rfl⟩
    rw [hn] at hsc
    have hdd : ((r.desmear.toNat : Nat) : F) = ((r.desmear : Int) : F) := by
      have h1 : ((r.desmear.toNat : Int) : F) = ((r.desmear : Int) : F) := by
        rw [Int.toNat_of_nonneg (by have := hdes i r hr; omega)]
      exact_mod_cast h1
    rw [Nat.cast_mul, hdd] at hsc
    refine mul_right_cancel₀ (mul_ne_zero ?_ ?_) hsc
    · exact_mod_cast (by omega : inp.timeSteps ≠ 0)
    · exact_mod_cast (by have := hdes i r hr; omega : r.desmear ≠ 0)
  · rw [if_neg hcase] at hpath
    rw [hpath] at hl hh ho ⊢
    exact ⟨by simp [pathSum], by rw [hl]; rfl, by rw [hh]; rfl, by rw [ho]; rfl⟩

/-- **C82, whole paths.** Cells whose whole path lies in the band hold the same value and the same
counters on both devices, if the rounded offsets do. Partial: cells at the band edges differ
(`C82_edge_differs`), offsets can differ (`C82_rounding_differs`), and the two devices round
floating-point sums differently. -/
theorem C82_whole_paths_partial {ops gops : SlopeOps S} {inp : Input F} {grid : Nat → Int → F}
    {mask : Nat → Int → UInt8} (hin : Holds inp grid mask) (hd : DenseViews inp)
    {rates : List (Rate S)} {off : Nat → Nat → Int} (hoff : OffsetsAre ops rates inp.timeSteps off)
    (hgoff : OffsetsAre gops rates inp.timeSteps off)
    (hdir : ∀ (i : Nat) (r : Rate S), rates[i]? = some r →
      gops.nonneg r.slope = ops.nonneg r.slope)
    (hfit : ∀ (i : Nat) (r : Rate S), rates[i]? = some r →
      Fits inp.numChannels inp.timeSteps (ops.nonneg r.slope) r.span r.desmear (off i))
    (hT : 0 < inp.timeSteps) (hdes : ∀ (i : Nat) (r : Rate S), rates[i]? = some r → 1 ≤ r.desmear)
    {G : Nat} {s' : Mem IAddr (ICell F)} (hG : 0 < G)
    (hgpu : Completes ProgStep (gpuIntegrate (F := F) gops inp.numChannels inp.timeSteps rates G)
      (integrateMem inp rates.length) s') :
    ∃ a, integrateCpu ops inp rates = .ok a ∧
      ∀ (i : Nat) (r : Rate S), rates[i]? = some r → ∀ c < inp.numChannels,
        WholePath inp.numChannels inp.timeSteps (ops.nonneg r.slope) r.span r.desmear.toNat
          (off i) c →
        let j : Int := i * inp.numChannels + c
        s' (.plane, j) = (a.plane j).map .inl ∧
          s' (.lowsk, j) = (a.lowsk j).map .inr ∧ s' (.highsk, j) = (a.highsk j).map .inr ∧
          s' (.rolloff, j) = (a.rolloff j).map .inr := by
  obtain ⟨a, ha, h⟩ := C82_gpu_cpu_relation hin hd hoff hgoff hdir hfit hT hdes hG hgpu
  refine ⟨a, ha, fun i r hr c hc hw => ?_⟩
  obtain ⟨x, y, hx, hy, h1, _⟩ := h i r hr c hc
  have hcase : ops.nonneg r.slope = true ∨ -r.span ≤ c := by
    by_cases hup : ops.nonneg r.slope = true
    · exact .inl hup
    · have h0 := hw 0 hT 0 (by have := hdes i r hr; omega)
      rw [if_neg hup] at h0
      exact .inr h0.1
  obtain ⟨_, h3, h4⟩ := h1 hcase
  have hlen := whole_path_length hw
  have hsign : ∀ t < inp.timeSteps,
      if ops.nonneg r.slope = true then 0 ≤ off i t else off i t ≤ 0 := by
    intro t ht
    have := hfit i r hr
    unfold Fits at this
    split at this
    · rename_i h; rw [if_pos h]; exact (this t ht).1
    · rename_i h; rw [if_neg h]; exact (this.2.2 t ht).1
  rw [path_eq_bandPath (by omega) (by omega) hsign, if_pos hcase] at hlen
  refine ⟨?_, h4⟩
  rw [hy, hx, ← h3 hlen]
  rfl

end

section
variable {F : Type} [Field F] [LinearOrder F] [IsStrictOrderedRing F] {S : Type}

theorem sum_bounds (grid : Nat → Int → F) {lo hi : F} (p : List (Nat × Int))
    (h : ∀ s ∈ p, lo ≤ grid s.1 s.2 ∧ grid s.1 s.2 ≤ hi) (acc : F) :
    acc + p.length * lo ≤ p.foldl (fun acc s => acc + grid s.1 s.2) acc ∧
      p.foldl (fun acc s => acc + grid s.1 s.2) acc ≤ acc + p.length * hi := by
  induction p generalizing acc with
  | nil => simp
  | cons s p ih =>
    obtain ⟨h1, h2⟩ := h s (by simp)
    obtain ⟨h3, h4⟩ := ih (fun s' hs' => h s' (by simp [hs'])) (acc + grid s.1 s.2)
    simp only [List.foldl_cons, List.length_cons, Nat.cast_add, Nat.cast_one]
    constructor <;> linarith

/-- **C81, levels.** In exact arithmetic every GPU cell whose path has a sample in the band lies
between any bounds of those samples; in particular a constant spectrum gives a constant plane, up
to the band edges. -/
theorem C81_gpu_levels {ops : SlopeOps S} {inp : Input F} {grid : Nat → Int → F}
    {mask : Nat → Int → UInt8} (hin : Holds inp grid mask) (hd : DenseViews inp)
    {rates : List (Rate S)} {off : Nat → Nat → Int} (hoff : OffsetsAre ops rates inp.timeSteps off)
    {G : Nat} {s' : Mem IAddr (ICell F)} (hG : 0 < G)
    (hgpu : Completes ProgStep (gpuIntegrate (F := F) ops inp.numChannels inp.timeSteps rates G)
      (integrateMem inp rates.length) s')
    {i : Nat} {r : Rate S} (hr : rates[i]? = some r) {c : Nat} (hc : c < inp.numChannels)
    {lo hi : F} (hne : bandPath inp.numChannels inp.timeSteps (ops.nonneg r.slope)
      r.desmear.toNat (off i) c ≠ [])
    (hsamples : ∀ s ∈ bandPath inp.numChannels inp.timeSteps (ops.nonneg r.slope)
      r.desmear.toNat (off i) c, lo ≤ grid s.1 s.2 ∧ grid s.1 s.2 ≤ hi) :
    ∃ v, s' (.plane, i * inp.numChannels + c) = some (.inl v) ∧ lo ≤ v ∧ v ≤ hi := by
  obtain ⟨h1, _⟩ := ((C81_gpu_drift_plane hin hd hoff hG).2.2.2 s' hgpu).1 i r hr c hc
  refine ⟨_, h1, ?_⟩
  obtain ⟨h2, h3⟩ := sum_bounds grid _ hsamples 0
  unfold pathMean
  rw [if_neg hne]
  have hl : (0 : F) < ((bandPath inp.numChannels inp.timeSteps (ops.nonneg r.slope)
      r.desmear.toNat (off i) c).length : Int) := by
    have : 0 < (bandPath inp.numChannels inp.timeSteps (ops.nonneg r.slope)
      r.desmear.toNat (off i) c).length := List.length_pos_iff.2 hne
    exact_mod_cast this
  push_cast at hl ⊢
  rw [le_div_iff₀ hl, div_le_iff₀ hl]
  constructor <;> linarith

end

/-! ## Witnesses -/

theorem denseInput_dense {α : Type} (T N : Nat) (grid : Nat → Int → α) (mask : Nat → Int → UInt8) :
    DenseViews (denseInput T N grid mask) := ⟨rfl, rfl, rfl, rfl, rfl, rfl⟩

theorem exOffsets (grid : Nat → Int → ℚ) (mask : Nat → Int → UInt8) :
    OffsetsAre intOps exRates (denseInput 3 8 grid mask).timeSteps exOff := by
  intro i r h t _
  rcases exRates_cases h with ⟨rfl, rfl⟩ | ⟨rfl, rfl⟩ <;> simp [intOps, exRates, exOff]

/-- The hypotheses of C81 and C82 are met by a 3 × 8 grid with an upward and a downward rate and
four threads, for every content of the grid and of the mask. -/
example (grid : Nat → Int → ℚ) (mask : Nat → Int → UInt8) :
    let inp := denseInput 3 8 grid mask
    Holds inp grid mask ∧ DenseViews inp ∧ OffsetsAre intOps exRates inp.timeSteps exOff ∧
      (∀ (i : Nat) (r : Rate Int), exRates[i]? = some r →
        Fits inp.numChannels inp.timeSteps (intOps.nonneg r.slope) r.span r.desmear (exOff i)) ∧
      (∀ (i : Nat) (r : Rate Int), exRates[i]? = some r → 1 ≤ r.desmear) ∧
      (∃ s', Completes ProgStep (gpuIntegrate (F := ℚ) intOps inp.numChannels inp.timeSteps
        exRates 4) (integrateMem inp exRates.length) s') ∧
      WholePath inp.numChannels inp.timeSteps (intOps.nonneg exRates[0].slope) exRates[0].span
        exRates[0].desmear.toNat (exOff 0) 3 ∧
      bandPath inp.numChannels inp.timeSteps true 2 (exOff 0) 5 =
        [(0, 5), (0, 6), (1, 6), (1, 7), (2, 7)] := by
  refine ⟨denseInput_holds _ _ _ _, denseInput_dense _ _ _ _, exOffsets grid mask, ?_, ?_,
    (C81_gpu_drift_plane (denseInput_holds _ _ _ _) (denseInput_dense _ _ _ _)
      (exOffsets grid mask) (by decide)).2.2.1, ?_,
    (by decide : bandPath 8 3 true 2 (exOff 0) 5 = _)⟩
  · intro i r h
    rcases exRates_cases h with ⟨rfl, rfl⟩ | ⟨rfl, rfl⟩
    · simp only [Fits, intOps, exRates, exOff, denseInput, List.getElem_cons_zero]
      simp only [show decide ((0:Int) ≤ 1) = true from rfl, if_true]
      intro t ht; omega
    · simp only [Fits, intOps, exRates, exOff, denseInput, List.getElem_cons_zero,
        List.getElem_cons_succ]
      simp only [show decide ((0:Int) ≤ -2) = false from rfl, Bool.false_eq_true, if_false]
      refine ⟨by decide, by decide, fun t ht => ?_⟩
      simp only [one_ne_zero, if_false]; omega
  · intro i r h
    rcases exRates_cases h with ⟨rfl, rfl⟩ | ⟨rfl, rfl⟩ <;> decide
  · intro t ht k hk
    simp only [denseInput, intOps, exRates, exOff, List.getElem_cons_zero] at *
    simp only [show decide ((0:Int) ≤ 1) = true from rfl, if_true]
    have : (2 : Int).toNat = 2 := rfl
    omega

/-- **C81/C02 contrast.** A drift of six channels in a band of four is undefined behaviour on the
CPU; on the GPU it is integrated like any other. -/
theorem C81_too_fast_drift_ok (grid : Nat → Int → Int) (mask : Nat → Int → UInt8) {G : Nat}
    (hG : 0 < G) :
    let r : Rate Int := { indexInPlane := 0, slope := 6, hzPerSec := 0, span := 6, desmear := 1 }
    integrateCpu intOps (denseInput 2 4 grid mask) [r] = .ub ∧
    ¬ Exec ProgStep (gpuIntegrate (F := Int) intOps 4 2 [r] G)
      (integrateMem (denseInput 2 4 grid mask) 1) .ub := by
  intro r
  refine ⟨C02_too_fast_drift_is_ub grid mask, ?_⟩
  refine (C81_gpu_drift_plane (denseInput_holds 2 4 grid mask) (denseInput_dense 2 4 grid mask)
    (rates := [r]) (off := fun _ t => 6 * t) ?_ hG).1
  intro i r' h t _
  rcases i with _ | i <;> simp at h
  subst h; simp [intOps, r]

/-- **C82 fails at the band edges.** A constant spectrum with one upward drift: in the last
channel the CPU reports half of what the GPU reports. -/
theorem C82_edge_differs :
    ∃ (inp : Input ℚ) (grid : Nat → Int → ℚ) (mask : Nat → Int → UInt8) (r : Rate Int)
      (off : Nat → Nat → Int) (a : Acc ℚ) (s' : Mem IAddr (ICell ℚ)),
      Holds inp grid mask ∧ DenseViews inp ∧ OffsetsAre intOps [r] inp.timeSteps off ∧
      Fits inp.numChannels inp.timeSteps (intOps.nonneg r.slope) r.span r.desmear (off 0) ∧
      integrateCpu intOps inp [r] = .ok a ∧
      Completes ProgStep (gpuIntegrate (F := ℚ) intOps inp.numChannels inp.timeSteps [r] 1)
        (integrateMem inp 1) s' ∧
      a.plane 1 = some (1 / 2) ∧ s' (.plane, 1) = some (.inl 1) := by
  let r : Rate Int := { indexInPlane := 0, slope := 1, hzPerSec := 0, span := 1, desmear := 1 }
  let off : Nat → Nat → Int := fun _ t => t
  let grid : Nat → Int → ℚ := fun _ _ => 1
  let mask : Nat → Int → UInt8 := fun _ _ => 0
  have hin := denseInput_holds 2 2 grid mask
  have hd := denseInput_dense 2 2 grid mask
  have hoff : OffsetsAre intOps [r] 2 off := by
    intro i r' h t _
    rcases i with _ | i <;> simp at h
    subst h; simp [intOps, r, off]
  have hfit0 : Fits 2 2 (intOps.nonneg r.slope) r.span r.desmear (off 0) := by
    simp only [Fits, intOps, r, off]
    simp only [show decide ((0:Int) ≤ 1) = true from rfl, if_true]
    intro t ht; omega
  have hfit : ∀ (i : Nat) (r' : Rate Int), [r][i]? = some r' →
      Fits 2 2 (intOps.nonneg r'.slope) r'.span r'.desmear (off i) := by
    intro i r' h
    rcases i with _ | i <;> simp at h
    subst h; exact hfit0
  obtain ⟨a, ha, hcpu⟩ := C01_drift_plane_cell (inp := denseInput 2 2 grid mask) hin ⟨rfl, rfl⟩ hoff hfit
  obtain ⟨_, _, ⟨s', hs'⟩, hgpu⟩ :=
    C81_gpu_drift_plane (inp := denseInput 2 2 grid mask) hin hd hoff (G := 1) (by decide)
  refine ⟨denseInput 2 2 grid mask, grid, mask, r, off, a, s', hin, hd, hoff, hfit0, ha, hs', ?_, ?_⟩
  · have := hcpu 0 r rfl 1 (by decide) (by decide)
    have e : (path 2 2 (intOps.nonneg r.slope) r.span r.desmear.toNat (off 0) 1) = [(0, 1)] := by
      decide
    simp only [denseInput, e] at this
    simp only [denseInput] at *
    norm_num [pathSum, grid, r] at this
    simpa using this
  · obtain ⟨h1, _⟩ := (hgpu s' hs').1 0 r rfl 1 (by decide)
    have e : (bandPath 2 2 (intOps.nonneg r.slope) r.desmear.toNat (off 0) ((1 : Nat) : Int)) =
        [(0, 1)] := by decide
    simp only [denseInput, e] at h1
    norm_num [pathMean, grid] at h1
    exact h1

/-- **C81 needs dense views.** On a view that takes every second channel of its array the kernel
averages samples that are not in the view. -/
theorem C81_ignores_strides :
    ∃ (inp : Input Int) (grid : Nat → Int → Int) (mask : Nat → Int → UInt8) (r : Rate Int)
      (off : Nat → Nat → Int),
      Holds inp grid mask ∧ inp.specOffset = 0 ∧ inp.rfiOffset = 0 ∧
      OffsetsAre intOps [r] inp.timeSteps off ∧
      ∃ s', Completes ProgStep (gpuIntegrate (F := Int) intOps inp.numChannels inp.timeSteps [r] 1)
        (integrateMem inp 1) s' ∧
      s' (.plane, 1) ≠ some (.inl (pathMean grid (bandPath inp.numChannels inp.timeSteps
        (intOps.nonneg r.slope) r.desmear.toNat (off 0) 1))) := by
  let r : Rate Int := { indexInPlane := 0, slope := 0, hzPerSec := 0, span := 0, desmear := 1 }
  let off : Nat → Nat → Int := fun _ _ => 0
  let mask : Nat → Int → UInt8 := fun _ _ => 0
  let buf : Buf Int := Buf.ofFn 4 (fun j => j)
  let rfi : Buf UInt8 := Buf.ofFn 4 (fun _ => 0)
  let inp : Input Int :=
    { spec := buf, specStride0 := 4, specStride1 := 2, rfi := rfi, rfiStride0 := 4,
      rfiStride1 := 2, timeSteps := 1, numChannels := 2 }
  have hoff : OffsetsAre intOps [r] 1 off := by
    intro i r' h t _
    rcases i with _ | i <;> simp at h
    subst h; simp [intOps, r, off]
  -- the same memory seen as a dense array
  let inp' : Input Int := { inp with specStride0 := 2, specStride1 := 1, rfiStride0 := 2, rfiStride1 := 1 }
  have hin' : Holds inp' (fun _ c => c) mask := by
    constructor <;>
    · intro t c ht h0 hN
      have ht0 : t = 0 := Nat.lt_one_iff.1 ht
      have hN' : c < 2 := hN
      subst ht0
      have h4 : c < 4 := by omega
      simp [inp', inp, buf, rfi, mask, Buf.ofFn, h0, h4]
  have hd' : DenseViews inp' := ⟨rfl, rfl, rfl, rfl, rfl, rfl⟩
  obtain ⟨_, _, ⟨s', hs'⟩, hgpu⟩ := C81_gpu_drift_plane hin' hd' (rates := [r]) hoff
    (G := 1) (by decide)
  refine ⟨inp, fun _ c => 2 * c, mask, r, off, ?_, rfl, rfl, hoff, s', hs', ?_⟩
  · constructor <;>
    · intro t c ht h0 hN
      have ht0 : t = 0 := Nat.lt_one_iff.1 ht
      have hN' : c < 2 := hN
      subst ht0
      have h1 : c * 2 < 4 := by omega
      have h2 : 0 ≤ c * 2 := by omega
      simp [inp, buf, rfi, mask, Buf.ofFn, h0, h1, Int.mul_comm]
  · obtain ⟨h1, _⟩ := (hgpu s' hs').1 0 r rfl 1 (by decide)
    have h2 : s' (.plane, 1) = some (.inl (pathMean (fun _ (c : Int) => c)
      (bandPath 2 1 (intOps.nonneg r.slope) r.desmear.toNat (off 0) ((1 : Nat) : Int)))) := by
      simpa using h1
    have e : ∀ c : Int, c = 1 → (bandPath 2 1 (intOps.nonneg r.slope) r.desmear.toNat (off 0) c) =
        [(0, 1)] := by rintro c rfl; decide
    rw [h2]
    intro h
    have h4 := Sum.inl.inj (Option.some.inj h)
    rw [e _ rfl] at h4
    exact absurd h4 (by decide)

end Bliss.Gpu
