import Verif.Drift.Symmetry
import Mathlib.Tactic.FieldSimp
import Mathlib.Tactic.Ring

/-!
# Superposition, monotonicity and locality of drift integration (C136)

Statements about two or three runs of the integrator with the same drifts. `RunsOn` collects what
they share: an input that holds the grid and starts at the beginning of its memory, and drifts that
fit its band.
-/

namespace Bliss.Drift

variable {F S : Type}

/-- The integrator is run with `inp`, which holds the samples `grid` and the flags `mask`, for drifts
`rates` with the offsets `off`, all of which fit the band. -/
structure RunsOn [Zero F] [Add F] [Div F] [IntCast F] (ops : SlopeOps S) (inp : Input F)
    (grid : Nat → Int → F) (mask : Nat → Int → UInt8) (rates : List (Rate S))
    (off : Nat → Nat → Int) (T N : Nat) : Prop where
  holds : Holds inp grid mask
  start : inp.specOffset = 0 ∧ inp.rfiOffset = 0
  time : inp.timeSteps = T
  band : inp.numChannels = N
  offsets : OffsetsAre ops rates T off
  fits : ∀ (i : Nat) (r : Rate S), rates[i]? = some r →
    Fits N T (ops.nonneg r.slope) r.span r.desmear (off i)

/-- The samples that make up the cell of drift `r` at channel `c`. -/
abbrev cellPath (ops : SlopeOps S) (T N : Nat) (r : Rate S) (off : Nat → Int) (c : Int) :
    List (Nat × Int) :=
  path N T (ops.nonneg r.slope) r.span r.desmear.toNat off c

theorem RunsOn.cell [Zero F] [Add F] [Div F] [IntCast F] {ops : SlopeOps S} {inp : Input F}
    {grid : Nat → Int → F} {mask : Nat → Int → UInt8} {rates : List (Rate S)}
    {off : Nat → Nat → Int} {T N : Nat} (h : RunsOn ops inp grid mask rates off T N) :
    ∃ a, integrateCpu ops inp rates = .ok a ∧
      ∀ (i : Nat) (r : Rate S), rates[i]? = some r → ∀ c : Int, 0 ≤ c → c < N →
        a.plane (i * N + c) =
          some (pathSum grid r.desmear (cellPath ops T N r (off i) c) / ((T : Int) : F)) := by
  obtain ⟨h1, h2, h3, h4, h5, h6⟩ := h
  subst h3 h4
  exact C01_drift_plane_cell h1 h2 h5 h6

/-! ## Superposition -/

section Exact

variable [Field F]

theorem pathSum_linear (x y : Nat → Int → F) (α β : F) (d : Int) (p : List (Nat × Int)) :
    pathSum (fun t c => α * x t c + β * y t c) d p = α * pathSum x d p + β * pathSum y d p := by
  unfold pathSum
  have : ∀ (p : List (Nat × Int)) (u v : F),
      p.foldl (fun acc s => acc + (α * x s.1 s.2 + β * y s.1 s.2) / (d : F)) (α * u + β * v) =
        α * p.foldl (fun acc s => acc + x s.1 s.2 / (d : F)) u +
          β * p.foldl (fun acc s => acc + y s.1 s.2 / (d : F)) v := by
    intro p
    induction p with
    | nil => intro u v; rfl
    | cons s p ih =>
      intro u v
      simp only [List.foldl_cons]
      rw [← ih]
      congr 1
      ring
  have h := this p 0 0
  rw [mul_zero, mul_zero, add_zero] at h
  exact h

/-- **C136 (superposition).** In exact arithmetic the drift plane of a weighted sum of two spectra is
the weighted sum of their drift planes, cell by cell, at the band edges too. -/
theorem C136_superposition {ops : SlopeOps S} {inp inp' inp'' : Input F} {x y : Nat → Int → F}
    {mask mask' mask'' : Nat → Int → UInt8} {rates : List (Rate S)} {off : Nat → Nat → Int}
    {T N : Nat} (α β : F) (hx : RunsOn ops inp x mask rates off T N)
    (hy : RunsOn ops inp' y mask' rates off T N)
    (hs : RunsOn ops inp'' (fun t c => α * x t c + β * y t c) mask'' rates off T N) :
    ∃ a b s, integrateCpu ops inp rates = .ok a ∧ integrateCpu ops inp' rates = .ok b ∧
      integrateCpu ops inp'' rates = .ok s ∧
      ∀ (i : Nat), i < rates.length → ∀ c : Int, 0 ≤ c → c < N →
        ∃ u v, a.plane (i * N + c) = some u ∧ b.plane (i * N + c) = some v ∧
          s.plane (i * N + c) = some (α * u + β * v) := by
  obtain ⟨a, ha, ca⟩ := hx.cell
  obtain ⟨b, hb, cb⟩ := hy.cell
  obtain ⟨s, hs, cs⟩ := hs.cell
  refine ⟨a, b, s, ha, hb, hs, ?_⟩
  intro i hi c h0 hN
  have hr : rates[i]? = some rates[i] := List.getElem?_eq_getElem hi
  refine ⟨_, _, ca i _ hr c h0 hN, cb i _ hr c h0 hN, ?_⟩
  rw [cs i _ hr c h0 hN, pathSum_linear]
  congr 1
  ring

end Exact

/-! ## Monotonicity and locality, in any arithmetic -/

section Any

variable [Zero F] [Add F] [Div F] [IntCast F]

/-- Sums and quotients by positive integers respect the order: true of exact arithmetic and of every
arithmetic with a monotone rounding. -/
structure MonotoneArith (F : Type) [Add F] [Div F] [IntCast F] [LE F] : Prop where
  refl : ∀ a : F, a ≤ a
  add : ∀ a b c d : F, a ≤ b → c ≤ d → a + c ≤ b + d
  div : ∀ (a b : F) (n : Int), 0 < n → a ≤ b → a / (n : F) ≤ b / (n : F)

/-- **C136 (monotone).** Where no sample on its line is lowered, a cell is not lowered: adding power
to a spectrum cannot hide a signal from the drift plane. -/
theorem C136_monotone [LE F] (hm : MonotoneArith F) {ops : SlopeOps S} {inp inp' : Input F}
    {x y : Nat → Int → F} {mask mask' : Nat → Int → UInt8} {rates : List (Rate S)}
    {off : Nat → Nat → Int} {T N : Nat} (hT : 0 < T) (hx : RunsOn ops inp x mask rates off T N)
    (hy : RunsOn ops inp' y mask' rates off T N)
    (hd : ∀ (i : Nat) (r : Rate S), rates[i]? = some r → 1 ≤ r.desmear) :
    ∃ a b, integrateCpu ops inp rates = .ok a ∧ integrateCpu ops inp' rates = .ok b ∧
      ∀ (i : Nat) (r : Rate S), rates[i]? = some r → ∀ c : Int, 0 ≤ c → c < N →
        (∀ s ∈ cellPath ops T N r (off i) c, x s.1 s.2 ≤ y s.1 s.2) →
        ∃ u v, a.plane (i * N + c) = some u ∧ b.plane (i * N + c) = some v ∧ u ≤ v := by
  obtain ⟨a, ha, ca⟩ := hx.cell
  obtain ⟨b, hb, cb⟩ := hy.cell
  refine ⟨a, b, ha, hb, ?_⟩
  intro i r hr c h0 hN hle
  refine ⟨_, _, ca i r hr c h0 hN, cb i r hr c h0 hN, ?_⟩
  refine hm.div _ _ _ (by omega) ?_
  unfold pathSum
  have hd' := hd i r hr
  have : ∀ (p : List (Nat × Int)), (∀ s ∈ p, x s.1 s.2 ≤ y s.1 s.2) → ∀ u v : F, u ≤ v →
      p.foldl (fun acc s => acc + x s.1 s.2 / (r.desmear : F)) u ≤
        p.foldl (fun acc s => acc + y s.1 s.2 / (r.desmear : F)) v := by
    intro p
    induction p with
    | nil => intro _ u v h; exact h
    | cons s p ih =>
      intro h u v huv
      exact ih (fun s' hs' => h s' (List.mem_cons_of_mem _ hs')) _ _
        (hm.add _ _ _ _ huv (hm.div _ _ _ (by omega) (h s List.mem_cons_self)))
  exact this _ hle 0 0 (hm.refl 0)

/-- **C136 (local).** A cell depends on the samples of its line only: changing any others leaves it
unchanged, bit for bit. -/
theorem C136_local {ops : SlopeOps S} {inp inp' : Input F} {x y : Nat → Int → F}
    {mask mask' : Nat → Int → UInt8} {rates : List (Rate S)} {off : Nat → Nat → Int} {T N : Nat}
    (hx : RunsOn ops inp x mask rates off T N) (hy : RunsOn ops inp' y mask' rates off T N) :
    ∃ a b, integrateCpu ops inp rates = .ok a ∧ integrateCpu ops inp' rates = .ok b ∧
      ∀ (i : Nat) (r : Rate S), rates[i]? = some r → ∀ c : Int, 0 ≤ c → c < N →
        (∀ s ∈ cellPath ops T N r (off i) c, x s.1 s.2 = y s.1 s.2) →
        (a.plane (i * N + c)).isSome = true ∧ a.plane (i * N + c) = b.plane (i * N + c) := by
  obtain ⟨a, ha, ca⟩ := hx.cell
  obtain ⟨b, hb, cb⟩ := hy.cell
  refine ⟨a, b, ha, hb, ?_⟩
  intro i r hr c h0 hN heq
  rw [ca i r hr c h0 hN, cb i r hr c h0 hN]
  refine ⟨rfl, ?_⟩
  congr 2
  unfold pathSum
  exact List.foldl_ext _ _ _ (fun acc s hs => by rw [heq s hs])

theorem path_shift {N N' T d : Nat} {up : Bool} {span : Int} {off : Nat → Int} {c k : Int}
    (h : WholePath N T up span d off c) (h' : WholePath N' T up span d off (c + k)) :
    path N' T up span d off (c + k) = (path N T up span d off c).map (fun s => (s.1, s.2 + k)) := by
  unfold path
  rw [List.map_flatMap]
  refine List.flatMap_congr ?_
  intro t ht
  rw [List.map_filterMap]
  refine List.filterMap_congr ?_
  intro j hj
  have e := h t (List.mem_range.1 ht) j (List.mem_range.1 hj)
  have e' := h' t (List.mem_range.1 ht) j (List.mem_range.1 hj)
  unfold pathChannel
  cases up with
  | true =>
    simp only [if_true] at e e' ⊢
    rw [if_pos e.2, if_pos e'.2]
    simp only [Option.map_some, Option.some.injEq, Prod.mk.injEq, true_and]
    omega
  | false =>
    simp only [Bool.false_eq_true, if_false] at e e' ⊢
    rw [if_pos ⟨e'.1, e'.2.1⟩, if_pos ⟨e.1, e.2.1⟩]
    simp only [Option.map_some, Option.some.injEq, Prod.mk.injEq, true_and]
    omega

theorem whole_mem {N T d : Nat} {up : Bool} {span : Int} {off : Nat → Int} {c : Int}
    (h : WholePath N T up span d off c) {s : Nat × Int} (hs : s ∈ path N T up span d off c) :
    s.1 < T ∧ 0 ≤ s.2 ∧ s.2 < N := by
  obtain ⟨t, ch⟩ := s
  cases up with
  | true =>
    obtain ⟨ht, j, hj, rfl, _⟩ := (mem_path_up N T d span off c t ch).1 hs
    have := h t ht j hj
    simp only [if_true] at this
    exact ⟨ht, this⟩
  | false =>
    obtain ⟨ht, _, j, hj, rfl, _⟩ := (mem_path_down N T d span off c t ch).1 hs
    have := h t ht j hj
    simp only [Bool.false_eq_true, if_false] at this
    exact ⟨ht, this.2⟩

/-- **C136 (independent of the band).** Take two spectra of possibly different widths that show the
same samples, the second `k` channels further up: two overlapping pieces of a band, or the band split
into coarse channels in two ways. A line that lies inside both gives the same cell in both, bit for
bit. -/
theorem C136_translate {ops : SlopeOps S} {inp inp' : Input F} {x y : Nat → Int → F}
    {mask mask' : Nat → Int → UInt8} {rates : List (Rate S)} {off : Nat → Nat → Int} {T N N' : Nat}
    (hx : RunsOn ops inp x mask rates off T N) (hy : RunsOn ops inp' y mask' rates off T N')
    (k : Int) (hsame : ∀ t < T, ∀ c : Int, 0 ≤ c → c < N → 0 ≤ c + k → c + k < N' →
      y t (c + k) = x t c) :
    ∃ a b, integrateCpu ops inp rates = .ok a ∧ integrateCpu ops inp' rates = .ok b ∧
      ∀ (i : Nat) (r : Rate S), rates[i]? = some r → ∀ c : Int, 0 ≤ c → c < N → 0 ≤ c + k →
        c + k < N' →
        WholePath N T (ops.nonneg r.slope) r.span r.desmear.toNat (off i) c →
        WholePath N' T (ops.nonneg r.slope) r.span r.desmear.toNat (off i) (c + k) →
        (a.plane (i * N + c)).isSome = true ∧ b.plane (i * N' + (c + k)) = a.plane (i * N + c) := by
  obtain ⟨a, ha, ca⟩ := hx.cell
  obtain ⟨b, hb, cb⟩ := hy.cell
  refine ⟨a, b, ha, hb, ?_⟩
  intro i r hr c h0 hN h0' hN' w w'
  rw [ca i r hr c h0 hN, cb i r hr (c + k) h0' hN']
  refine ⟨rfl, ?_⟩
  have hp := path_shift w w'
  unfold cellPath
  rw [hp]
  congr 2
  unfold pathSum
  rw [List.foldl_map]
  refine List.foldl_ext _ _ _ (fun acc s hs => ?_)
  obtain ⟨h1, h2, h3⟩ := whole_mem w hs
  have hm : ((s.1, s.2 + k) : Nat × Int) ∈
      path N' T (ops.nonneg r.slope) r.span r.desmear.toNat (off i) (c + k) := by
    rw [hp]; exact List.mem_map.2 ⟨s, hs, rfl⟩
  obtain ⟨-, h4, h5⟩ := whole_mem w' hm
  rw [hsame s.1 h1 s.2 h2 h3 h4 h5]

end Any

/-- Exact arithmetic respects the order. -/
theorem monotoneArith_field [Field F] [LinearOrder F] [IsStrictOrderedRing F] : MonotoneArith F where
  refl := le_refl
  add := fun _ _ _ _ h h' => add_le_add h h'
  div := fun a b n hn h =>
    div_le_div_of_nonneg_right h (by exact_mod_cast hn.le)

/-! ## A concrete case -/

/-- Two drifts over two spectra of `N` channels, straight up and one channel down. -/
def slowRates : List (Rate Int) :=
  [{ indexInPlane := 0, slope := 0, hzPerSec := 0, span := 0, desmear := 1 },
   { indexInPlane := 1, slope := -1, hzPerSec := 0, span := -1, desmear := 1 }]

/-- The offsets of these drifts. -/
def slowOff : Nat → Nat → Int := fun i t => if i = 0 then 0 else -t

theorem exRuns {G : Type} [Zero G] [Add G] [Div G] [IntCast G] (N : Nat) (hN : 1 ≤ N)
    (grid : Nat → Int → G) :
    RunsOn intOps (denseInput 2 N grid (fun _ _ => 0)) grid (fun _ _ => 0) slowRates slowOff 2 N where
  holds := denseInput_holds 2 N grid _
  start := ⟨rfl, rfl⟩
  time := rfl
  band := rfl
  offsets := by
    intro i r hr t ht
    match i, hr with
    | 0, hr => cases hr; simp [intOps, slowOff]
    | 1, hr => cases hr; simp [intOps, slowOff]
  fits := by
    intro i r hr
    match i, hr with
    | 0, hr =>
      cases hr
      simp only [Fits, intOps, slowOff]
      intro t ht
      simp
    | 1, hr =>
      cases hr
      simp only [Fits, intOps, slowOff]
      refine ⟨by decide, by simpa using by exact_mod_cast hN, ?_⟩
      intro t ht
      simp
      omega

/-- Superposition and monotonicity for four channels; the line of one channel down at channel 2 lies
inside both pieces `0..3` and `1..4` of a band. -/
example (x y : Nat → Int → ℚ) : ∃ a b s,
    integrateCpu intOps (denseInput 2 4 x (fun _ _ => 0)) slowRates = .ok a ∧
    integrateCpu intOps (denseInput 2 4 y (fun _ _ => 0)) slowRates = .ok b ∧
    integrateCpu intOps (denseInput 2 4 (fun t c => 2 * x t c + 3 * y t c) (fun _ _ => 0)) slowRates =
      .ok s ∧
    ∀ (i : Nat), i < 2 → ∀ c : Int, 0 ≤ c → c < 4 →
      ∃ u v, a.plane (i * 4 + c) = some u ∧ b.plane (i * 4 + c) = some v ∧
        s.plane (i * 4 + c) = some (2 * u + 3 * v) :=
  C136_superposition 2 3 (exRuns 4 (by omega) x) (exRuns 4 (by omega) y) (exRuns 4 (by omega) _)

example : WholePath 4 2 false (-1) 1 (slowOff 1) 2 ∧ WholePath 4 2 false (-1) 1 (slowOff 1) (2 + -1) := by
  constructor <;>
  · intro t ht k hk
    simp only [slowOff, Bool.false_eq_true, if_false]
    simp
    omega

end Bliss.Drift
