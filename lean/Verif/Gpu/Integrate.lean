import Verif.Gpu.Prog
import Verif.Drift.Props
import Verif.Drift.Symmetry

/-!
# Model of the CUDA drift integrator

`bliss/drift_search/kernels/drift_integration_cuda.cu`, lines 28–184. One thread integrates
all drifts of the channels it owns; it reads the spectrum and the mask and writes the drift
plane and three counters, all in device memory.
-/

namespace Bliss.Gpu

open Bliss.Drift

/-- The arrays of the kernel (lines 29-35). -/
inductive IArr
  | plane | lowsk | highsk | rolloff | spec | mask
  deriving DecidableEq, Repr

/-- An element of one of the arrays. -/
abbrev IAddr := IArr × Int

/-- A memory cell holds a `float` or a `uint8_t`. -/
abbrev ICell (F : Type) := F ⊕ UInt8

/-- `spectrum_grid_data[i]` (line 71). -/
def loadF {F : Type} (a : IAddr) : Prog IAddr (ICell F) F :=
  .load a fun v => match v with
    | .inl x => .ret x
    | .inr _ => .fault

/-- `rfi_mask_data[i]` (line 74). -/
def loadB {F : Type} (a : IAddr) : Prog IAddr (ICell F) UInt8 :=
  .load a fun v => match v with
    | .inr x => .ret x
    | .inl _ => .fault

/-- The running totals of one cell (lines 54-59). -/
structure Tot (F : Type) where
  sum : F
  bins : Nat
  lowsk : UInt8
  highsk : UInt8
  rolloff : UInt8

/-- Lines 54-59. -/
def Tot.zero {F : Type} [Zero F] : Tot F :=
  { sum := 0, bins := 0, lowsk := 0, highsk := 0, rolloff := 0 }

/-- Lines 71-83: accumulate one sample and its flags; 8-bit counters wrap. `int
accumulated_bins` is a mathematical integer. -/
def Tot.add {F : Type} [Add F] (a : Tot F) (x : F) (flags : UInt8) : Tot F :=
  { sum := a.sum + x, bins := a.bins + 1,
    lowsk := if flags &&& flagLowSK ≠ 0 then a.lowsk + 1 else a.lowsk,
    highsk := if flags &&& flagHighSK ≠ 0 then a.highsk + 1 else a.highsk,
    rolloff := if flags &&& flagRolloff ≠ 0 then a.rolloff + 1 else a.rolloff }

/-- The channel read for offset `off` and desmear bin `k` (lines 65-66). 32-bit arithmetic is
mathematical. -/
def gpuChannel (up : Bool) (off : Int) (k : Nat) (c : Int) : Int :=
  c + if up then off + k else off - k

/-- One sample (lines 65-84): samples outside the band are skipped. The index assumes a dense
spectrum and a dense mask (line 69): strides and offsets of the views are not used. -/
def gpuSample {F S : Type} [Add F] (ops : SlopeOps S) (N : Nat) (r : Rate S) (c : Nat) (t : Nat)
    (off : Int) (k : Nat) (a : Tot F) : Prog IAddr (ICell F) (Tot F) :=
  let ch := gpuChannel (ops.nonneg r.slope) off k c
  if 0 ≤ ch ∧ ch < N then do
    let x ← loadF (.spec, t * N + ch)
    let flags ← loadB (.mask, t * N + ch)
    pure (a.add x flags)
  else pure a

/-- One time step (lines 61-86); `offAt` is `lroundf(m * t)`; `cudaOps` in
`Verif/Gpu/Offsets.lean` is its arithmetic. -/
def gpuTime {F S : Type} [Add F] (ops : SlopeOps S) (N : Nat) (r : Rate S) (c : Nat) (t : Nat)
    (a : Tot F) : Prog IAddr (ICell F) (Tot F) := do
  let off ← Prog.ofOutcome (ops.offAt r.slope t)
  Prog.loop r.desmear.toNat (fun k a => gpuSample ops N r c t off k a) a

/-- Lines 88-95: the cell is the mean of the samples, or 0 without samples; the counters of a
cell without samples are not written. -/
def gpuStore {F : Type} [Zero F] [Div F] [IntCast F] (j : Int) (a : Tot F) :
    Prog IAddr (ICell F) Unit :=
  if a.bins = 0 then .store (.plane, j) (.inl 0) (.ret ())
  else
    .store (.plane, j) (.inl (a.sum / ((a.bins : Int) : F)))
      (.store (.lowsk, j) (.inr a.lowsk)
        (.store (.highsk, j) (.inr a.highsk)
          (.store (.rolloff, j) (.inr a.rolloff) (.ret ()))))

/-- One drift of one channel (lines 48-96). -/
def gpuCell {F S : Type} [Zero F] [Add F] [Div F] [IntCast F] (ops : SlopeOps S) (N T : Nat)
    (rates : List (Rate S)) (c i : Nat) : Prog IAddr (ICell F) Unit :=
  match rates[i]? with
  | none => .fault
  | some r => do
    let a ← Prog.loop T (fun t a => gpuTime ops N r c t a) Tot.zero
    gpuStore (i * N + c) a

/-- All drifts of one channel (lines 47-97). -/
def gpuChan {F S : Type} [Zero F] [Add F] [Div F] [IntCast F] (ops : SlopeOps S) (N T : Nat)
    (rates : List (Rate S)) (c : Nat) : Prog IAddr (ICell F) Unit :=
  Prog.each (List.range rates.length) (gpuCell ops N T rates c)

/-- The kernel (lines 29-98) on `G` threads (the launch of lines 158-160 has
`G = 4096 * 256`). -/
def gpuIntegrate {F S : Type} [Zero F] [Add F] [Div F] [IntCast F] (ops : SlopeOps S)
    (N T : Nat) (rates : List (Rate S)) (G : Nat) : Fin G → Prog IAddr (ICell F) Unit :=
  fun tid => Prog.each (gridStride G N tid) (gpuChan ops N T rates)

/-- Device memory at the launch (lines 119-148): the input arrays at their base pointers, the
plane and the counters zeroed, `number_drifts * number_channels` elements each. -/
def integrateMem {F : Type} [Zero F] (inp : Input F) (D : Nat) : Mem IAddr (ICell F) :=
  fun a =>
    let n : Int := D * inp.numChannels
    match a with
    | (.plane, j) => (Buf.ofFn n (fun _ => (0 : F)) j).map .inl
    | (.lowsk, j) => (Buf.ofFn n (fun _ => (0 : UInt8)) j).map .inr
    | (.highsk, j) => (Buf.ofFn n (fun _ => (0 : UInt8)) j).map .inr
    | (.rolloff, j) => (Buf.ofFn n (fun _ => (0 : UInt8)) j).map .inr
    | (.spec, j) => (inp.spec j).map .inl
    | (.mask, j) => (inp.rfi j).map .inr

/-! ## Specification -/

/-- The samples that make up one cell on the GPU: those of the drift's path that lie in the
band, in time order then desmear order. -/
def bandPath (N T : Nat) (up : Bool) (desmear : Nat) (off : Nat → Int) (c : Int) :
    List (Nat × Int) :=
  (List.range T).flatMap fun t =>
    (List.range desmear).filterMap fun (k : Nat) =>
      let ch := c + if up then off t + k else off t - k
      if 0 ≤ ch ∧ ch < N then some (t, ch) else none

/-- Mean of the samples of a path, 0 for an empty path. -/
def pathMean {F : Type} [Zero F] [Add F] [Div F] [IntCast F] (grid : Nat → Int → F)
    (p : List (Nat × Int)) : F :=
  if p = [] then 0 else p.foldl (fun acc s => acc + grid s.1 s.2) 0 / ((p.length : Int) : F)

/-- The arrays are dense and start at their base pointers. -/
structure DenseViews {F : Type} (inp : Input F) : Prop where
  specOffset : inp.specOffset = 0
  rfiOffset : inp.rfiOffset = 0
  specStride0 : inp.specStride0 = inp.numChannels
  specStride1 : inp.specStride1 = 1
  rfiStride0 : inp.rfiStride0 = inp.numChannels
  rfiStride1 : inp.rfiStride1 = 1

/-! ## Sequential lemmas -/

theorem Prog.loop_inv {A V α : Type} [DecidableEq A] {n : Nat} {f : Nat → α → Prog A V α}
    {x : α} {s : Mem A V} (I : Nat → α → Mem A V → Prop) (h0 : I 0 x s)
    (hstep : ∀ k x s, k < n → I k x s → ∃ x' s', (f k x).run s = .ok (x', s') ∧ I (k + 1) x' s') :
    ∃ x' s', (Prog.loop n f x).run s = .ok (x', s') ∧ I n x' s' := by
  induction n with
  | zero => exact ⟨x, s, rfl, h0⟩
  | succ n ih =>
    obtain ⟨x1, s1, h1, hI⟩ := ih fun k x s hk => hstep k x s (by omega)
    obtain ⟨x2, s2, h2, hI2⟩ := hstep n x1 s1 (by omega) hI
    exact ⟨x2, s2, by rw [Prog.loop, Prog.run_bind, h1]; exact h2, hI2⟩

section
variable {F S : Type} [Zero F] [Add F] [Div F] [IntCast F]

/-- The totals of a path. -/
def totals (grid : Nat → Int → F) (mask : Nat → Int → UInt8) (p : List (Nat × Int)) : Tot F :=
  p.foldl (fun a s => a.add (grid s.1 s.2) (mask s.1 s.2)) Tot.zero

omit [Div F] [IntCast F] in
theorem totals_append (grid : Nat → Int → F) (mask : Nat → Int → UInt8)
    (p : List (Nat × Int)) (x : Nat × Int) :
    totals grid mask (p ++ [x]) = (totals grid mask p).add (grid x.1 x.2) (mask x.1 x.2) := by
  simp [totals]

omit [Div F] [IntCast F] in
theorem totals_eq (grid : Nat → Int → F) (mask : Nat → Int → UInt8) (p : List (Nat × Int)) :
    totals grid mask p =
      { sum := p.foldl (fun acc s => acc + grid s.1 s.2) 0, bins := p.length,
        lowsk := UInt8.ofNat (pathFlags mask flagLowSK p),
        highsk := UInt8.ofNat (pathFlags mask flagHighSK p),
        rolloff := UInt8.ofNat (pathFlags mask flagRolloff p) } := by
  induction p using List.reverseRecOn with
  | nil => rfl
  | append_singleton p x ih =>
    rw [totals_append, ih]
    have key : ∀ flag, (if mask x.1 x.2 &&& flag ≠ 0 then UInt8.ofNat (pathFlags mask flag p) + 1
        else UInt8.ofNat (pathFlags mask flag p)) = UInt8.ofNat (pathFlags mask flag (p ++ [x])) := by
      intro flag
      unfold pathFlags
      rw [List.countP_append]
      by_cases h : mask x.1 x.2 &&& flag ≠ 0
      · rw [if_pos h]; simp [h]
      · rw [if_neg h]
        rw [not_not] at h
        simp [h]
    simp only [Tot.add, List.foldl_append, List.foldl_cons, List.foldl_nil, List.length_append,
      List.length_singleton, key]

/-- `s` holds the input grids where the kernel looks for them. -/
def InputsAt (N T : Nat) (grid : Nat → Int → F) (mask : Nat → Int → UInt8)
    (s : Mem IAddr (ICell F)) : Prop :=
  ∀ (t : Nat) (c : Int), t < T → 0 ≤ c → c < N →
    s (.spec, t * N + c) = some (.inl (grid t c)) ∧ s (.mask, t * N + c) = some (.inr (mask t c))

/-- The part of the path at one time step, up to desmear bin `d`. -/
def stepPath (N : Nat) (up : Bool) (off : Int) (c : Int) (t d : Nat) : List (Nat × Int) :=
  (List.range d).filterMap fun (k : Nat) =>
    let ch := c + if up then off + k else off - k
    if 0 ≤ ch ∧ ch < N then some (t, ch) else none

omit [Div F] [IntCast F] in
theorem gpuSample_run {ops : SlopeOps S} {N T : Nat} {r : Rate S} {grid : Nat → Int → F}
    {mask : Nat → Int → UInt8} {s : Mem IAddr (ICell F)} (hs : InputsAt N T grid mask s)
    {c t : Nat} (ht : t < T) (off : Int) (k : Nat) (q : List (Nat × Int)) :
    (gpuSample ops N r c t off k (totals grid mask q)).run s =
      .ok (totals grid mask (q ++ (let ch := (c : Int) + if ops.nonneg r.slope then off + k else off - k
        if 0 ≤ ch ∧ ch < N then [(t, ch)] else [])), s) := by
  unfold gpuSample gpuChannel
  simp only
  generalize (c : Int) + (if ops.nonneg r.slope = true then off + (k : Int) else off - k) = ch
  by_cases h : 0 ≤ ch ∧ ch < N
  · rw [if_pos h, if_pos h]
    obtain ⟨h1, h2⟩ := hs t _ ht h.1 h.2
    rw [totals_append]
    show Prog.run (Prog.bind _ _) s = _
    simp only [loadF, Prog.bind, Prog.run, h1]
    show Prog.run (Prog.bind _ _) s = _
    simp only [loadB, Prog.bind, Prog.run, h2]
    rfl
  · rw [if_neg h, if_neg h, List.append_nil]; rfl

omit [Div F] [IntCast F] in
theorem gpuTime_run {ops : SlopeOps S} {N T : Nat} {r : Rate S} {grid : Nat → Int → F}
    {mask : Nat → Int → UInt8} {s : Mem IAddr (ICell F)} (hs : InputsAt N T grid mask s)
    {c t : Nat} (ht : t < T) {off : Int} (ho : ops.offAt r.slope t = .ok off)
    (q : List (Nat × Int)) :
    (gpuTime ops N r c t (totals grid mask q)).run s =
      .ok (totals grid mask (q ++ stepPath N (ops.nonneg r.slope) off c t r.desmear.toNat), s) := by
  unfold gpuTime
  rw [ho]
  show Prog.run (Prog.loop _ _ _) s = _
  obtain ⟨x, s', h1, h2, h3⟩ := Prog.loop_inv (s := s)
    (f := fun k a => gpuSample ops N r c t off k a) (n := r.desmear.toNat)
    (x := totals grid mask q)
    (fun k a s' => s' = s ∧ a = totals grid mask (q ++ stepPath N (ops.nonneg r.slope) off c t k))
    ⟨rfl, by simp [stepPath]⟩
    (by
      rintro k x s' _ ⟨rfl, rfl⟩
      refine ⟨_, _, gpuSample_run hs ht off k _, rfl, ?_⟩
      simp only [stepPath, List.range_succ, List.filterMap_append, List.append_assoc,
        List.filterMap_cons, List.filterMap_nil]
      generalize (c : Int) + (if ops.nonneg r.slope = true then off + (k : Int) else off - k) = ch
      by_cases h : 0 ≤ ch ∧ ch < N
      · simp only [if_pos h]
      · simp only [if_neg h])
  rw [h1, h2, h3]

theorem bandPath_succ (N T : Nat) (up : Bool) (d : Nat) (off : Nat → Int) (c : Int) :
    bandPath N (T + 1) up d off c = bandPath N T up d off c ++ stepPath N up (off T) c T d := by
  simp only [bandPath, stepPath, List.range_succ, List.flatMap_append, List.flatMap_cons,
    List.flatMap_nil, List.append_nil]

omit [Div F] [IntCast F] in
theorem gpuTimes_run {ops : SlopeOps S} {N T : Nat} {r : Rate S} {grid : Nat → Int → F}
    {mask : Nat → Int → UInt8} {s : Mem IAddr (ICell F)} (hs : InputsAt N T grid mask s)
    (c : Nat) {off : Nat → Int} (ho : ∀ t < T, ops.offAt r.slope t = .ok (off t)) :
    (Prog.loop T (fun t a => gpuTime ops N r c t a) Tot.zero).run s =
      .ok (totals grid mask (bandPath N T (ops.nonneg r.slope) r.desmear.toNat off c), s) := by
  obtain ⟨x, s', h1, h2, h3⟩ := Prog.loop_inv (s := s)
    (f := fun t (a : Tot F) => gpuTime ops N r c t a) (n := T) (x := Tot.zero)
    (fun t a s' => s' = s ∧
      a = totals grid mask (bandPath N t (ops.nonneg r.slope) r.desmear.toNat off c))
    ⟨rfl, rfl⟩
    (by
      rintro t x s' ht ⟨rfl, rfl⟩
      exact ⟨_, _, gpuTime_run hs ht (ho t ht) _, rfl, by rw [bandPath_succ]⟩)
  rw [h1, h2, h3]

/-- What a cell holds at the end. -/
structure CellIs (s : Mem IAddr (ICell F)) (j : Int) (a : Tot F) : Prop where
  plane : s (.plane, j) = some (.inl (if a.bins = 0 then 0 else a.sum / ((a.bins : Int) : F)))
  lowsk : s (.lowsk, j) = some (.inr a.lowsk)
  highsk : s (.highsk, j) = some (.inr a.highsk)
  rolloff : s (.rolloff, j) = some (.inr a.rolloff)

/-- The cell exists and its counters are zero. -/
structure CellFresh (s : Mem IAddr (ICell F)) (j : Int) : Prop where
  plane : ∃ v, s (.plane, j) = some v
  lowsk : s (.lowsk, j) = some (.inr 0)
  highsk : s (.highsk, j) = some (.inr 0)
  rolloff : s (.rolloff, j) = some (.inr 0)

theorem gpuStore_run {s : Mem IAddr (ICell F)} {j : Int} (hj : CellFresh s j)
    (grid : Nat → Int → F) (mask : Nat → Int → UInt8) (p : List (Nat × Int)) :
    ∃ s', (gpuStore j (totals grid mask p)).run s = .ok ((), s') ∧
      CellIs s' j (totals grid mask p) := by
  obtain ⟨⟨v, h1⟩, h2, h3, h4⟩ := hj
  unfold gpuStore
  by_cases hb : (totals grid mask p).bins = 0
  · rw [if_pos hb]
    have hp : p = [] := by
      rw [totals_eq] at hb
      exact List.length_eq_zero_iff.1 hb
    subst hp
    refine ⟨_, by simp only [Prog.run, h1]; rfl, ⟨?_, ?_, ?_, ?_⟩⟩
    · rw [if_pos hb, Function.update_self]
    all_goals
      rw [Function.update_of_ne (by simp)]
      simpa [totals, Tot.zero]
  · rw [if_neg hb]
    refine ⟨_, by
      simp only [Prog.run, h1]
      rw [Function.update_of_ne (by simp), h2]
      dsimp only
      rw [Function.update_of_ne (by simp), Function.update_of_ne (by simp), h3]
      dsimp only
      rw [Function.update_of_ne (by simp), Function.update_of_ne (by simp),
        Function.update_of_ne (by simp), h4], ⟨?_, ?_, ?_, ?_⟩⟩
    · rw [if_neg hb]
      simp [Function.update_apply]
    all_goals simp [Function.update_apply]

theorem gpuCell_run {ops : SlopeOps S} {N T : Nat} {rates : List (Rate S)} {r : Rate S}
    {grid : Nat → Int → F} {mask : Nat → Int → UInt8} {s : Mem IAddr (ICell F)}
    (hs : InputsAt N T grid mask s) {c i : Nat} (hr : rates[i]? = some r) {off : Nat → Int}
    (ho : ∀ t < T, ops.offAt r.slope t = .ok (off t)) (hj : CellFresh s (i * N + c)) :
    ∃ s', (gpuCell ops N T rates c i).run s = .ok ((), s') ∧
      CellIs s' (i * N + c)
        (totals grid mask (bandPath N T (ops.nonneg r.slope) r.desmear.toNat off c)) := by
  unfold gpuCell
  rw [hr]
  obtain ⟨s', h1, h2⟩ := gpuStore_run hj grid mask
    (bandPath N T (ops.nonneg r.slope) r.desmear.toNat off c)
  refine ⟨s', ?_, h2⟩
  show Prog.run (Prog.bind _ _) s = _
  rw [Prog.run_bind, gpuTimes_run hs c ho]
  exact h1

/-! ## Footprints -/

/-- The addresses a cell writes. -/
def cellW (N c i : Nat) (a : IAddr) : Prop :=
  a.2 = (i : Int) * N + c ∧ a.1 ≠ .spec ∧ a.1 ≠ .mask

/-- The addresses a cell touches. -/
def cellX (N c i : Nat) (a : IAddr) : Prop := cellW N c i a ∨ a.1 = .spec ∨ a.1 = .mask

theorem gpuCell_within (ops : SlopeOps S) (N T : Nat) (rates : List (Rate S)) (c i : Nat) :
    (gpuCell (F := F) ops N T rates c i).Within (cellX N c i) (cellW N c i) := by
  unfold gpuCell
  split
  · exact .fault
  · rename_i r _
    refine Prog.Within.bind (Prog.Within.loop (fun t _ a => ?_) _) fun a => ?_
    · unfold gpuTime
      refine Prog.Within.bind (Prog.Within.ofOutcome _) fun off => Prog.Within.loop (fun k _ a => ?_) _
      unfold gpuSample
      simp only
      split
      · refine Prog.Within.bind ?_ fun x => Prog.Within.bind ?_ fun f => .ret _
        · exact .load (.inr (.inl rfl)) fun v => by cases v <;> constructor
        · exact .load (.inr (.inr rfl)) fun v => by cases v <;> constructor
      · exact .ret _
    · unfold gpuStore
      have h : ∀ arr : IArr, arr ≠ .spec → arr ≠ .mask → cellW N c i (arr, (i : Int) * N + c) :=
        fun arr h1 h2 => ⟨rfl, h1, h2⟩
      split
      · exact .store (h _ (by simp) (by simp)) (.ret _)
      · exact .store (h _ (by simp) (by simp)) (.store (h _ (by simp) (by simp))
          (.store (h _ (by simp) (by simp)) (.store (h _ (by simp) (by simp)) (.ret _))))

theorem gpuCell_bounded (ops : SlopeOps S) (N T : Nat) (rates : List (Rate S)) (c i : Nat) :
    ∃ n, (gpuCell (F := F) ops N T rates c i).Bounded n := by
  unfold gpuCell
  split
  · exact ⟨0, .fault 0⟩
  · rename_i r _
    refine ⟨T * (0 + r.desmear.toNat * 2) + 4, Prog.Bounded.bind (Prog.Bounded.loop (fun t _ a => ?_) _)
      fun a => ?_⟩
    · unfold gpuTime
      refine Prog.Bounded.bind (Prog.Bounded.ofOutcome _) fun off =>
        Prog.Bounded.loop (fun k _ a => ?_) _
      unfold gpuSample
      simp only
      split
      · refine Prog.Bounded.bind (n := 1) (m := 1) ?_ fun x =>
          Prog.Bounded.bind (n := 1) (m := 0) ?_ fun f => .ret _ _
        · exact .load fun v => by cases v <;> constructor
        · exact .load fun v => by cases v <;> constructor
      · exact .ret _ _
    · unfold gpuStore
      split
      · exact .store (.ret _ _)
      · exact .store (.store (.store (.store (.ret _ _))))

theorem cell_disjoint {N c c' i i' : Nat} (hc : c < N) (hc' : c' < N) (h : (c, i) ≠ (c', i'))
    (a : IAddr) (hW : cellW N c i a) : ¬ cellX N c' i' a := by
  rintro (⟨h1, _⟩ | h1 | h1)
  · obtain ⟨h2, _⟩ := hW
    rw [h2] at h1
    apply h
    have h3 : i * N + c = i' * N + c' := by exact_mod_cast h1
    have h4 : i = i' := by
      have := congrArg (· / N) h3
      simpa [Nat.mul_comm _ N, Nat.mul_add_div (by omega : 0 < N),
        Nat.div_eq_of_lt hc, Nat.div_eq_of_lt hc'] using this
    subst h4
    have : c = c' := by omega
    rw [this]
  · exact hW.2.1 h1
  · exact hW.2.2 h1

/-- The initial memory holds the inputs of dense views. -/
theorem integrateMem_inputs {inp : Input F} {grid : Nat → Int → F} {mask : Nat → Int → UInt8}
    (hin : Holds inp grid mask) (hd : DenseViews inp) (D : Nat) :
    InputsAt inp.numChannels inp.timeSteps grid mask (integrateMem inp D) := by
  intro t c ht h0 hN
  have h1 := hin.spec t c ht h0 hN
  have h2 := hin.rfi t c ht h0 hN
  rw [hd.specOffset, hd.specStride0, hd.specStride1] at h1
  rw [hd.rfiOffset, hd.rfiStride0, hd.rfiStride1] at h2
  simp only [Int.zero_add, Int.mul_one] at h1 h2
  exact ⟨by simp [integrateMem, h1], by simp [integrateMem, h2]⟩

theorem integrateMem_fresh (inp : Input F) {D i c : Nat} (hi : i < D) (hc : c < inp.numChannels) :
    CellFresh (integrateMem inp D) (i * inp.numChannels + c) := by
  have h : 0 ≤ (i : Int) * inp.numChannels + c ∧
      (i : Int) * inp.numChannels + c < (D : Int) * inp.numChannels := by
    constructor
    · positivity
    · have : i * inp.numChannels + c < D * inp.numChannels := by
        calc i * inp.numChannels + c < (i + 1) * inp.numChannels := by rw [Nat.succ_mul]; omega
          _ ≤ D * inp.numChannels := Nat.mul_le_mul_right _ hi
      exact_mod_cast this
  constructor <;> simp [integrateMem, Buf.ofFn, h]

/-- The whole launch, for dense views: safe, terminating, and every complete execution leaves
the totals of the in-band path in every cell and the inputs as they were. -/
theorem gpuIntegrate_spec {ops : SlopeOps S} {inp : Input F} {grid : Nat → Int → F}
    {mask : Nat → Int → UInt8} (hin : Holds inp grid mask) (hd : DenseViews inp)
    {rates : List (Rate S)} {off : Nat → Nat → Int} (hoff : OffsetsAre ops rates inp.timeSteps off)
    {G : Nat} (hG : 0 < G) :
    let K := gpuIntegrate (F := F) ops inp.numChannels inp.timeSteps rates G
    let s := integrateMem inp rates.length
    ¬ Exec ProgStep K s .ub ∧ Terminates ProgStep K s ∧ (∃ s', Completes ProgStep K s s') ∧
    ∀ s', Completes ProgStep K s s' →
      (∀ (i : Nat) (r : Rate S), rates[i]? = some r → ∀ c < inp.numChannels,
        CellIs s' (i * inp.numChannels + c) (totals grid mask
          (bandPath inp.numChannels inp.timeSteps (ops.nonneg r.slope) r.desmear.toNat
            (off i) c))) ∧
      ∀ j, s' (.spec, j) = s (.spec, j) ∧ s' (.mask, j) = s (.mask, j) := by
  intro K s
  have hs : InputsAt inp.numChannels inp.timeSteps grid mask s := integrateMem_inputs hin hd _
  have hcell : ∀ c < inp.numChannels, ∀ (i : Nat) (r : Rate S), rates[i]? = some r →
      ∃ t, (gpuCell ops inp.numChannels inp.timeSteps rates c i).run s = .ok ((), t) ∧
        CellIs t (i * inp.numChannels + c) (totals grid mask
          (bandPath inp.numChannels inp.timeSteps (ops.nonneg r.slope) r.desmear.toNat
            (off i) c)) := by
    intro c hc i r hr
    have hi : i < rates.length := by
      by_contra h
      rw [List.getElem?_eq_none (by omega)] at hr
      cases hr
    exact gpuCell_run hs hr (hoff i r hr) (integrateMem_fresh inp hi hc)
  have hW : ∀ c i (a : IAddr), cellW inp.numChannels c i a → cellX inp.numChannels c i a :=
    fun c i a h => .inl h
  have hchan : ∀ c < inp.numChannels, ∃ t,
      (gpuChan ops inp.numChannels inp.timeSteps rates c).run s = .ok ((), t) ∧
      ∀ (i : Nat) (r : Rate S), rates[i]? = some r →
        CellIs t (i * inp.numChannels + c) (totals grid mask
          (bandPath inp.numChannels inp.timeSteps (ops.nonneg r.slope) r.desmear.toNat
            (off i) c)) := by
    intro c hc
    obtain ⟨t, h1, h2, _⟩ := each_run (hW c)
      (fun i => gpuCell_within ops inp.numChannels inp.timeSteps rates c i)
      (List.range rates.length)
      (fun i _ i' _ a hne => cell_disjoint hc hc (fun e => hne (congrArg Prod.snd e)) a)
      List.nodup_range s
      (fun i hi => by
        obtain ⟨t, ht, _⟩ := hcell c hc i _ (List.getElem?_eq_getElem (List.mem_range.1 hi))
        exact ⟨t, ht⟩)
    refine ⟨t, h1, fun i r hr => ?_⟩
    have hi : i < rates.length := by
      by_contra h
      rw [List.getElem?_eq_none (by omega)] at hr
      cases hr
    obtain ⟨ti, h3, h4⟩ := h2 i (List.mem_range.2 hi)
    obtain ⟨t', h5, h6⟩ := hcell c hc i r hr
    rw [h5] at h3
    obtain rfl : t' = ti := congrArg Prod.snd (Outcome.ok.inj h3)
    have hx : ∀ arr : IArr, arr ≠ .spec → arr ≠ .mask →
        cellX inp.numChannels c i (arr, (i : Int) * inp.numChannels + c) :=
      fun arr h1 h2 => .inl ⟨rfl, h1, h2⟩
    exact ⟨by rw [h4 _ (hx _ (by simp) (by simp))]; exact h6.plane,
      by rw [h4 _ (hx _ (by simp) (by simp))]; exact h6.lowsk,
      by rw [h4 _ (hx _ (by simp) (by simp))]; exact h6.highsk,
      by rw [h4 _ (hx _ (by simp) (by simp))]; exact h6.rolloff⟩
  let X : Nat → IAddr → Prop := fun c a => ∃ i < rates.length, cellX inp.numChannels c i a
  let W : Nat → IAddr → Prop := fun c a => ∃ i < rates.length, cellW inp.numChannels c i a
  obtain ⟨h1, h2, h3, h4⟩ := gridStride_exec (X := X) (W := W) (numel := inp.numChannels)
    (body := gpuChan (F := F) ops inp.numChannels inp.timeSteps rates) hG
    (fun c a ⟨i, hi, h⟩ => ⟨i, hi, hW c i a h⟩)
    (by
      rintro c hc c' hc' a hne ⟨i, _, hw⟩ ⟨i', _, hx⟩
      exact cell_disjoint hc hc' (fun e => hne (congrArg Prod.fst e)) a hw hx)
    (fun c => Prog.Within.each fun i hi => (gpuCell_within ops _ _ rates c i).mono
      (fun a h => ⟨i, List.mem_range.1 hi, h⟩) (fun a h => ⟨i, List.mem_range.1 hi, h⟩))
    (fun c => by
      have : ∃ k, ∀ i ∈ List.range rates.length,
          (gpuCell (F := F) ops inp.numChannels inp.timeSteps rates c i).Bounded k := by
        generalize List.range rates.length = xs
        induction xs with
        | nil => exact ⟨0, by simp⟩
        | cons x xs ih =>
          obtain ⟨k, hk⟩ := ih
          obtain ⟨k', hk'⟩ := gpuCell_bounded (F := F) ops inp.numChannels inp.timeSteps rates c x
          refine ⟨k + k', fun n hn => ?_⟩
          rcases List.mem_cons.1 hn with rfl | hn
          · exact hk'.mono (by omega)
          · exact (hk n hn).mono (by omega)
      obtain ⟨k, hk⟩ := this
      exact ⟨_, Prog.Bounded.each hk⟩)
    s (fun c hc => by obtain ⟨t, ht, _⟩ := hchan c hc; exact ⟨t, ht⟩)
  refine ⟨h1, h2, h3, fun s' hs' => ?_⟩
  obtain ⟨h5, h6⟩ := h4 s' hs'
  constructor
  · intro i r hr c hc
    have hi : i < rates.length := by
      by_contra h
      rw [List.getElem?_eq_none (by omega)] at hr
      cases hr
    obtain ⟨t, ht, hat⟩ := h5 c hc
    obtain ⟨t', ht', h7⟩ := hchan c hc
    rw [ht'] at ht
    obtain rfl : t' = t := congrArg Prod.snd (Outcome.ok.inj ht)
    have h8 := h7 i r hr
    have hx : ∀ arr : IArr, arr ≠ .spec → arr ≠ .mask →
        X c (arr, (i : Int) * inp.numChannels + c) :=
      fun arr h1 h2 => ⟨i, hi, .inl ⟨rfl, h1, h2⟩⟩
    exact ⟨by rw [hat _ (hx _ (by simp) (by simp))]; exact h8.plane,
      by rw [hat _ (hx _ (by simp) (by simp))]; exact h8.lowsk,
      by rw [hat _ (hx _ (by simp) (by simp))]; exact h8.highsk,
      by rw [hat _ (hx _ (by simp) (by simp))]; exact h8.rolloff⟩
  · intro j
    constructor <;> refine h6 _ ?_ <;> rintro c _ ⟨i, _, _, h7, h8⟩ <;> simp_all

end

end Bliss.Gpu
