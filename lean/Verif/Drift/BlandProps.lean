import Verif.Drift.BlandLemmas
import Verif.Drift.Props

/-!
# C03: the two drift integrators return the same result

The generic integrator (array slices) and the hand-written CPU integrator are run on the same
arrays. Arithmetic on samples is uninterpreted (any `+`, `/`, conversion from `int`), so agreement
here is agreement of every rounding step, i.e. bit for bit.
-/

namespace Bliss.Drift
open Bliss.Nd

variable {F S : Type}

/-- What `integrate_linear_rounded_bins_cpu` sees of the same two arrays
(`drift_integration_cpu.cpp:20-26`): base pointers, strides and sizes. -/
def cpuInput (inp : BlandInput F) : Input F :=
  let dim (a : Arr) (i : Nat) : Dim := a.dims.getD i ⟨0, 0, 0⟩
  { spec := inp.heapF.mem inp.spec.blk
    specOffset := inp.spec.base
    specStride0 := (dim inp.spec 0).stride
    specStride1 := (dim inp.spec 1).stride
    rfi := inp.heapU.mem inp.mask.blk
    rfiOffset := inp.mask.base
    rfiStride0 := (dim inp.mask 0).stride
    rfiStride1 := (dim inp.mask 1).stride
    timeSteps := (dim inp.spec 0).size.toNat
    numChannels := (dim inp.spec 1).size.toNat }

theorem two_dims {a : Arr} {T N : Int} (h : a.shape = [T, N]) :
    ∃ d0 d1 : Dim, a.dims = [d0, d1] ∧ d0.size = T ∧ d1.size = N := by
  obtain ⟨blk, dims⟩ := a
  rcases dims with _ | ⟨d0, _ | ⟨d1, _ | ⟨_, _⟩⟩⟩ <;> simp [Arr.shape] at h
  exact ⟨d0, d1, rfl, h.1, h.2⟩

theorem reads_of_mapped {V : Type} (z : V) {h : Heap V} {a : Arr} {T N : Nat}
    (hs : a.shape = [(T : Int), (N : Int)]) (hl : a.blk < h.next) (hm : h.Mapped a) :
    Reads T N h a (fun t c => (h.get a [(t : Int), c]).getD z) := by
  refine ⟨hs, ?_, hl, ?_⟩
  · obtain ⟨d0, d1, e, h0, h1⟩ := two_dims hs
    intro d hd
    rw [e] at hd
    simp only [List.mem_cons, List.not_mem_nil, or_false] at hd
    rcases hd with rfl | rfl <;> omega
  · intro i c hi hc hN
    have := hm [(i : Int), c] (by rw [hs]; exact valid2_mk (by omega) (by omega))
    cases hx : h.get a [(i : Int), c] with
    | none => exact absurd hx this
    | some v => simp

/-- **C03, partial.** On the same two-dimensional arrays (any strides, every element inside its
allocation), whenever every drift rate fits in the band, both integrators succeed and every cell
of the drift plane and of the three counters is identical. Missing from C03: arrays that are views
starting inside their allocation, on which the two differ (`C03_sliced_input_differs`). -/
theorem C03_integrators_agree_partial [Zero F] [Add F] [Div F] [IntCast F] (ops : SlopeOps S)
    (junkF : Int → F) (junkU : Int → UInt8) (inp : BlandInput F) (T N : Nat)
    (hspec : inp.spec.shape = [(T : Int), (N : Int)])
    (hmask : inp.mask.shape = [(T : Int), (N : Int)])
    (hlive : inp.spec.blk < inp.heapF.next ∧ inp.mask.blk < inp.heapU.next)
    (hmapped : inp.heapF.Mapped inp.spec ∧ inp.heapU.Mapped inp.mask)
    (hview : inp.spec.base = 0 ∧ inp.mask.base = 0)
    (rates : List (Rate S)) (off : Nat → Nat → Int) (hoff : OffsetsAre ops rates T off)
    (hfit : ∀ (i : Nat) (r : Rate S), rates[i]? = some r →
      Fits N T (ops.nonneg r.slope) r.span r.desmear (off i)) :
    ∃ a b, integrateCpu ops (cpuInput inp) rates = .ok a ∧
      integrateBland ops junkF junkU inp rates = .ok b ∧
      b.plane.shape = [(rates.length : Int), (N : Int)] ∧
      ∀ (i : Nat) (c : Int), i < rates.length → 0 ≤ c → c < N →
        (∃ x, a.plane (i * N + c) = some x ∧ b.heapF.get b.plane [(i : Int), c] = some x) ∧
        (∃ x, a.lowsk (i * N + c) = some x ∧ b.heapU.get b.lowsk [(i : Int), c] = some x) ∧
        (∃ x, a.highsk (i * N + c) = some x ∧ b.heapU.get b.highsk [(i : Int), c] = some x) ∧
        (∃ x, a.rolloff (i * N + c) = some x ∧
          b.heapU.get b.rolloff [(i : Int), c] = some x) := by
  have r1 := reads_of_mapped (0 : F) hspec hlive.1 hmapped.1
  have r2 := reads_of_mapped (0 : UInt8) hmask hlive.2 hmapped.2
  obtain ⟨d0, d1, e, s0, s1⟩ := two_dims hspec
  obtain ⟨m0, m1, e', s0', s1'⟩ := two_dims hmask
  have hT : (cpuInput inp).timeSteps = T := by simp [cpuInput, e, s0]
  have hN : (cpuInput inp).numChannels = N := by simp [cpuInput, e, s1]
  have raw : HoldsRaw (cpuInput inp) (fun t c => (inp.heapF.get inp.spec [(t : Int), c]).getD 0)
      (fun t c => (inp.heapU.get inp.mask [(t : Int), c]).getD 0) := by
    constructor
    · intro t c ht hc hcN
      rw [hT] at ht; rw [hN] at hcN
      rw [← r1.val t c ht hc hcN]
      have hb := hview.1
      simp only [Arr.base, e, List.map_cons, List.map_nil, List.foldl_cons, List.foldl_nil] at hb
      simp only [cpuInput, e, Heap.get, addr, List.getD_cons_zero, List.getD_cons_succ]
      congr 1
      omega
    · intro t c ht hc hcN
      rw [hT] at ht; rw [hN] at hcN
      rw [← r2.val t c ht hc hcN]
      have hb := hview.2
      simp only [Arr.base, e', List.map_cons, List.map_nil, List.foldl_cons, List.foldl_nil] at hb
      simp only [cpuInput, e', Heap.get, addr, List.getD_cons_zero, List.getD_cons_succ]
      congr 1
      omega
  obtain ⟨a, ha, ha'⟩ := integrate_rep raw (by rw [hT]; exact hoff) (by rw [hT, hN]; exact hfit)
  obtain ⟨b, hb, hbs, hb'⟩ := integrateBland_rep junkF junkU r1 r2 hoff hfit
  refine ⟨a, b, ha, hb, hbs, ?_⟩
  intro i c hi hc hcN
  have hri : rates[i]? = some rates[i] := List.getElem?_eq_getElem hi
  have h1 := ha' i _ hri c hc (by rw [hN]; exact hcN)
  have h2 := hb' i _ hri c hc hcN
  rw [hT, hN] at h1
  exact ⟨⟨_, h1.1, h2.1⟩, ⟨_, h1.2.1, h2.2.1⟩, ⟨_, h1.2.2.1, h2.2.2.1⟩, ⟨_, h1.2.2.2, h2.2.2.2⟩⟩

/-- The generic integrator alone, for views that start anywhere in their allocation: every cell is
the average of the samples on its path and every counter the number of flagged ones modulo 256. -/
theorem C03_generic_cell [Zero F] [Add F] [Div F] [IntCast F] (ops : SlopeOps S)
    (junkF : Int → F) (junkU : Int → UInt8) (inp : BlandInput F) (T N : Nat)
    (grid : Nat → Int → F) (mask : Nat → Int → UInt8)
    (hspec : Reads T N inp.heapF inp.spec grid) (hmask : Reads T N inp.heapU inp.mask mask)
    (rates : List (Rate S)) (off : Nat → Nat → Int) (hoff : OffsetsAre ops rates T off)
    (hfit : ∀ (i : Nat) (r : Rate S), rates[i]? = some r →
      Fits N T (ops.nonneg r.slope) r.span r.desmear (off i)) :
    ∃ b, integrateBland ops junkF junkU inp rates = .ok b ∧
      ∀ (i : Nat) (r : Rate S), rates[i]? = some r → ∀ c : Int, 0 ≤ c → c < N →
      let p := path N T (ops.nonneg r.slope) r.span r.desmear.toNat (off i) c
      b.heapF.get b.plane [(i : Int), c] = some (pathSum grid r.desmear p / ((T : Int) : F)) ∧
        ∃ l h o, b.heapU.get b.lowsk [(i : Int), c] = some l ∧
          b.heapU.get b.highsk [(i : Int), c] = some h ∧
          b.heapU.get b.rolloff [(i : Int), c] = some o ∧
          l.toNat = pathFlags mask 2 p % 256 ∧
          h.toNat = pathFlags mask 4 p % 256 ∧
          o.toNat = pathFlags mask 1 p % 256 := by
  obtain ⟨b, hb, _, hb'⟩ := integrateBland_rep junkF junkU hspec hmask hoff hfit
  refine ⟨b, hb, fun i r hr c hc hcN => ?_⟩
  obtain ⟨h1, h2, h3, h4⟩ := hb' i r hr c hc hcN
  exact ⟨h1, _, _, _, h2, h3, h4, by simp [flagLowSK], by simp [flagHighSK], by simp [flagRolloff]⟩

/-! ## Concrete cases -/

/-- A `T × N` spectrum and mask in block 0 of their heaps, holding the given grids, with the view
starting `start` elements into an allocation. -/
def exBland (T N start : Nat) (x : Int → Int) (m : Int → UInt8) : BlandInput Int :=
  { heapF := { mem := fun b => if b = 0 then Buf.ofFn (T * N + start) x else fun _ => none, next := 1 }
    heapU := { mem := fun b => if b = 0 then Buf.ofFn (T * N + start) m else fun _ => none, next := 1 }
    spec := { blk := 0, dims := [⟨T, N, start⟩, ⟨N, 1, 0⟩] }
    mask := { blk := 0, dims := [⟨T, N, start⟩, ⟨N, 1, 0⟩] } }

/-- The hypotheses of C03 are met by a 3 × 8 grid with an upward and a downward rate, for every
content of the grid and of the mask. -/
example (x : Int → Int) (m : Int → UInt8) :
    let inp := exBland 3 8 0 x m
    inp.spec.shape = [((3 : Nat) : Int), ((8 : Nat) : Int)] ∧
      inp.mask.shape = [((3 : Nat) : Int), ((8 : Nat) : Int)] ∧
      (inp.spec.blk < inp.heapF.next ∧ inp.mask.blk < inp.heapU.next) ∧
      (inp.heapF.Mapped inp.spec ∧ inp.heapU.Mapped inp.mask) ∧
      (inp.spec.base = 0 ∧ inp.mask.base = 0) ∧ OffsetsAre intOps exRates 3 exOff ∧
      ∀ (i : Nat) (r : Rate Int), exRates[i]? = some r →
        Fits 8 3 (intOps.nonneg r.slope) r.span r.desmear (exOff i) := by
  refine ⟨rfl, rfl, ⟨Nat.zero_lt_one, Nat.zero_lt_one⟩, ⟨?_, ?_⟩, ⟨rfl, rfl⟩, ?_, ?_⟩
  · intro idx hi
    obtain ⟨i, c, rfl, h1, h2⟩ := valid2 hi
    simp only [exBland, Heap.get, addr, Buf.ofFn, if_true]
    rw [if_pos (by simp at h1 h2 ⊢; omega)]
    simp
  · intro idx hi
    obtain ⟨i, c, rfl, h1, h2⟩ := valid2 hi
    simp only [exBland, Heap.get, addr, Buf.ofFn, if_true]
    rw [if_pos (by simp at h1 h2 ⊢; omega)]
    simp
  · intro i r h t _
    rcases exRates_cases h with ⟨rfl, rfl⟩ | ⟨rfl, rfl⟩ <;> simp [intOps, exRates, exOff]
  · intro i r h
    rcases exRates_cases h with ⟨rfl, rfl⟩ | ⟨rfl, rfl⟩
    · simp only [Fits, intOps, exRates, exOff]
      intro t ht
      simp
      omega
    · simp only [Fits, intOps, exRates, exOff]
      simp
      intro t ht
      omega

/-- **Violation of C03.** On a view that starts one element into its allocation the generic
integrator uses the view, the CPU integrator the start of the allocation: `[1]` seen through a
one-element view of `[0, 1]` integrates to 1 with one and to 0 with the other. -/
theorem C03_sliced_input_differs :
    ∃ a b, integrateCpu intOps (cpuInput (exBland 1 1 1 id (fun _ => 0)))
        [{ indexInPlane := 0, slope := 0, hzPerSec := 0, span := 0, desmear := 1 }] = .ok a ∧
      integrateBland intOps (fun _ => 0) (fun _ => 0) (exBland 1 1 1 id (fun _ => 0))
        [{ indexInPlane := 0, slope := 0, hzPerSec := 0, span := 0, desmear := 1 }] = .ok b ∧
      a.plane 0 = some 0 ∧ b.heapF.get b.plane [0, 0] = some 1 := by
  refine ⟨_, _, rfl, rfl, ?_, ?_⟩
  · decide +kernel
  · decide +kernel

/-- When a drift is too fast for the band the two also differ: the generic integrator throws,
the CPU integrator accesses memory out of bounds. -/
theorem C03_too_fast_differs (x : Int → Int) (m : Int → UInt8) :
    integrateBland intOps (fun _ => 0) (fun _ => 0) (exBland 2 4 0 x m)
        [{ indexInPlane := 0, slope := 6, hzPerSec := 0, span := 6, desmear := 1 }]
      = .throws .outOfRange := by
  rfl

end Bliss.Drift
