import Verif.Drift.RatesProps
import Mathlib.Algebra.Order.Field.Basic
import Mathlib.Algebra.BigOperators.Group.List.Basic
import Mathlib.Algebra.Order.BigOperators.Group.List

/-!
# Levels and mirror symmetry of the drift plane (C08, C09)
-/

namespace Bliss.Drift

open Bliss.Float

/-! ## C08: levels -/

/-- The whole path of cell `c` lies in the band: all `T * desmear` samples are in range. -/
def WholePath (N T : Nat) (up : Bool) (span : Int) (desmear : Nat) (off : Nat → Int) (c : Int) :
    Prop :=
  ∀ t < T, ∀ k < desmear,
    if up then 0 ≤ c + off t + k ∧ c + off t + k < N
    else -span ≤ c ∧ 0 ≤ c + off t - k ∧ c + off t - k < N

theorem whole_path_length {N T d : Nat} {up : Bool} {span : Int} {off : Nat → Int} {c : Int}
    (h : WholePath N T up span d off c) : (path N T up span d off c).length = T * d := by
  unfold path
  rw [List.length_flatMap]
  have : ((List.range T).map fun t => ((List.range d).filterMap fun k =>
      (pathChannel N up span (off t) k c).map fun ch => (t, ch)).length) =
      (List.range T).map fun _ => d := by
    refine List.map_congr_left ?_
    intro t ht
    rw [List.mem_range] at ht
    have hall : ∀ k ∈ List.range d, ((pathChannel N up span (off t) k c).map
        fun ch => ((t, ch) : Nat × Int)).isSome := by
      intro k hk
      rw [List.mem_range] at hk
      have := h t ht k hk
      unfold pathChannel
      cases up with
      | true => simp only [if_true] at this ⊢; rw [if_pos this.2]; rfl
      | false =>
        simp only [Bool.false_eq_true, if_false] at this ⊢
        rw [if_pos ⟨this.1, this.2.1⟩]; rfl
    have key : ∀ (l : List Nat) (f : Nat → Option (Nat × Int)), (∀ k ∈ l, (f k).isSome) →
        (l.filterMap f).length = l.length := by
      intro l f
      induction l with
      | nil => simp
      | cons a l ih =>
        intro hl
        obtain ⟨v, hv⟩ := Option.isSome_iff_exists.1 (hl a (by simp))
        rw [List.filterMap_cons_some hv]
        simp [ih (fun k hk => hl k (by simp [hk]))]
    rw [key _ _ hall, List.length_range]
  rw [this]
  simp

section Ordered

variable {F : Type} [Field F] [LinearOrder F] [IsStrictOrderedRing F]

theorem pathSum_bounds {grid : Nat → Int → F} {d : Int} (hd : 1 ≤ d) {lo hi : F}
    (p : List (Nat × Int)) (h : ∀ s ∈ p, lo ≤ grid s.1 s.2 ∧ grid s.1 s.2 ≤ hi) (acc : F) :
    acc + p.length * (lo / (d : F)) ≤
        p.foldl (fun acc s => acc + grid s.1 s.2 / (d : F)) acc ∧
      p.foldl (fun acc s => acc + grid s.1 s.2 / (d : F)) acc ≤
        acc + p.length * (hi / (d : F)) := by
  have hdF : (0 : F) < d := by exact_mod_cast (by omega : (0 : Int) < d)
  induction p generalizing acc with
  | nil => simp
  | cons s p ih =>
    obtain ⟨h1, h2⟩ := h s (by simp)
    obtain ⟨h3, h4⟩ := ih (fun s' hs' => h s' (by simp [hs'])) (acc + grid s.1 s.2 / (d : F))
    have h5 := div_le_div_of_nonneg_right h1 hdF.le
    have h6 := div_le_div_of_nonneg_right h2 hdF.le
    simp only [List.foldl_cons, List.length_cons, Nat.cast_add, Nat.cast_one]
    constructor <;> linarith

variable {S : Type}

/-- **C08, levels preserved.** In exact arithmetic, a cell whose whole path lies in the band lies
between any lower and any upper bound of the samples on its path. -/
theorem C08_between {ops : SlopeOps S} {inp : Input F} {grid : Nat → Int → F}
    {mask : Nat → Int → UInt8} (hin : Holds inp grid mask)
    (hview : inp.specOffset = 0 ∧ inp.rfiOffset = 0) {rates : List (Rate S)}
    {off : Nat → Nat → Int} (hoff : OffsetsAre ops rates inp.timeSteps off)
    (hfit : ∀ (i : Nat) (r : Rate S), rates[i]? = some r →
      Fits inp.numChannels inp.timeSteps (ops.nonneg r.slope) r.span r.desmear (off i))
    (hT : 0 < inp.timeSteps) {i : Nat} {r : Rate S} (hr : rates[i]? = some r)
    (hdes : 1 ≤ r.desmear) {c : Int} (hc : 0 ≤ c) (hcN : c < inp.numChannels)
    (hwhole : WholePath inp.numChannels inp.timeSteps (ops.nonneg r.slope) r.span r.desmear.toNat
      (off i) c) {lo hi : F}
    (hsamples : ∀ s ∈ path inp.numChannels inp.timeSteps (ops.nonneg r.slope) r.span
      r.desmear.toNat (off i) c, lo ≤ grid s.1 s.2 ∧ grid s.1 s.2 ≤ hi) :
    ∃ a v, integrateCpu ops inp rates = .ok a ∧ a.plane (i * inp.numChannels + c) = some v ∧
      lo ≤ v ∧ v ≤ hi := by
  obtain ⟨a, ha, hcell⟩ := C01_drift_plane_cell hin hview hoff hfit
  refine ⟨a, _, ha, hcell i r hr c hc hcN, ?_⟩
  have hlen := whole_path_length hwhole
  have hb := pathSum_bounds hdes _ hsamples 0
  rw [hlen] at hb
  have hTF : (0 : F) < ((inp.timeSteps : Int) : F) := by exact_mod_cast hT
  have hdF : (0 : F) < (r.desmear : F) := by exact_mod_cast (by omega : (0 : Int) < r.desmear)
  have hdn : ((r.desmear.toNat : Nat) : F) = (r.desmear : F) := by
    have : ((r.desmear.toNat : Int)) = r.desmear := Int.toNat_of_nonneg (by omega)
    exact_mod_cast congrArg (fun z : Int => (z : F)) this
  have hmul : ∀ x : F, ((inp.timeSteps * r.desmear.toNat : Nat) : F) * (x / (r.desmear : F)) =
      ((inp.timeSteps : Int) : F) * x := by
    intro x
    rw [Nat.cast_mul, hdn, mul_assoc, mul_div_cancel₀ _ (ne_of_gt hdF), Int.cast_natCast]
  rw [hmul, hmul, zero_add, zero_add] at hb
  unfold pathSum
  constructor
  · rw [le_div_iff₀ hTF, mul_comm]; exact hb.1
  · rw [div_le_iff₀ hTF, mul_comm hi]; exact hb.2

/-- **C08, constant spectra.** A constant spectrum gives that constant in every cell whose whole
path lies in the band. -/
theorem C08_constant {ops : SlopeOps S} {inp : Input F} {x : F}
    {mask : Nat → Int → UInt8} (hin : Holds inp (fun _ _ => x) mask)
    (hview : inp.specOffset = 0 ∧ inp.rfiOffset = 0) {rates : List (Rate S)}
    {off : Nat → Nat → Int} (hoff : OffsetsAre ops rates inp.timeSteps off)
    (hfit : ∀ (i : Nat) (r : Rate S), rates[i]? = some r →
      Fits inp.numChannels inp.timeSteps (ops.nonneg r.slope) r.span r.desmear (off i))
    (hT : 0 < inp.timeSteps) {i : Nat} {r : Rate S} (hr : rates[i]? = some r)
    (hdes : 1 ≤ r.desmear) {c : Int} (hc : 0 ≤ c) (hcN : c < inp.numChannels)
    (hwhole : WholePath inp.numChannels inp.timeSteps (ops.nonneg r.slope) r.span r.desmear.toNat
      (off i) c) :
    ∃ a, integrateCpu ops inp rates = .ok a ∧ a.plane (i * inp.numChannels + c) = some x := by
  obtain ⟨a, v, h1, h2, h3, h4⟩ := C08_between hin hview hoff hfit hT hr hdes hc hcN hwhole
    (lo := x) (hi := x) (fun _ _ => ⟨le_refl _, le_refl _⟩)
  exact ⟨a, h1, by rw [h2, le_antisymm h4 h3]⟩

/-- **C08, non-negativity.** Every cell (whether or not its path leaves the band) of a non-negative
spectrum is non-negative. -/
theorem C08_nonneg {ops : SlopeOps S} {inp : Input F} {grid : Nat → Int → F}
    {mask : Nat → Int → UInt8} (hin : Holds inp grid mask)
    (hview : inp.specOffset = 0 ∧ inp.rfiOffset = 0) {rates : List (Rate S)}
    {off : Nat → Nat → Int} (hoff : OffsetsAre ops rates inp.timeSteps off)
    (hfit : ∀ (i : Nat) (r : Rate S), rates[i]? = some r →
      Fits inp.numChannels inp.timeSteps (ops.nonneg r.slope) r.span r.desmear (off i))
    (hdes : ∀ (i : Nat) (r : Rate S), rates[i]? = some r → 1 ≤ r.desmear)
    (hpos : ∀ t c, 0 ≤ grid t c) :
    ∃ a, integrateCpu ops inp rates = .ok a ∧
      ∀ (i : Nat) (r : Rate S), rates[i]? = some r → ∀ c : Int, 0 ≤ c → c < inp.numChannels →
        ∃ v, a.plane (i * inp.numChannels + c) = some v ∧ 0 ≤ v := by
  obtain ⟨a, ha, hcell⟩ := C01_drift_plane_cell hin hview hoff hfit
  refine ⟨a, ha, ?_⟩
  intro i r hr c hc hcN
  refine ⟨_, hcell i r hr c hc hcN, ?_⟩
  have hdF : (0 : F) ≤ (r.desmear : F) := by
    exact_mod_cast (by have := hdes i r hr; omega : (0 : Int) ≤ r.desmear)
  have key : ∀ (p : List (Nat × Int)) (acc : F), 0 ≤ acc →
      0 ≤ p.foldl (fun acc s => acc + grid s.1 s.2 / (r.desmear : F)) acc := by
    intro p
    induction p with
    | nil => intro acc h; exact h
    | cons s p ih =>
      intro acc h
      exact ih _ (add_nonneg h (div_nonneg (hpos _ _) hdF))
  refine div_nonneg (key _ 0 le_rfl) ?_
  exact_mod_cast Nat.zero_le inp.timeSteps

end Ordered

/-! ## C09: mirror symmetry -/

/-- The grid mirrored in frequency. -/
def mirror {α : Type} (N : Nat) (grid : Nat → Int → α) : Nat → Int → α :=
  fun t c => grid t (N - 1 - c)

theorem path_mirror {N T d : Nat} {span : Int} {off : Nat → Int} {c : Int} (h : c + span < N) :
    path N T false (-span) d (fun t => -off t) (N - 1 - c) =
      (path N T true span d off c).map (fun s => (s.1, (N : Int) - 1 - s.2)) := by
  unfold path
  rw [List.map_flatMap]
  congr 1
  funext t
  rw [List.map_filterMap]
  congr 1
  funext k
  unfold pathChannel
  simp only [Bool.false_eq_true, if_false, if_true]
  by_cases hlt : c + off t + k < N
  · rw [if_pos hlt, if_pos (by omega)]
    simp only [Option.map_some, Option.some.injEq, Prod.mk.injEq, true_and]
    omega
  · rw [if_neg hlt, if_neg (by omega)]
    rfl

/-- The path of a drift of zero is mirrored as well (both runs take the upward branch). -/
theorem path_mirror_zero {N T : Nat} {c : Int} (hc : 0 ≤ c) (h : c < N) :
    path N T true 0 1 (fun _ => 0) (N - 1 - c) =
      (path N T true 0 1 (fun _ => 0) c).map (fun s => (s.1, (N : Int) - 1 - s.2)) := by
  unfold path
  rw [List.map_flatMap]
  congr 1
  funext t
  have h1 : (N : Int) - 1 - c < N := by omega
  simp [pathChannel, h, h1]

section Mirror

variable {F : Type} [Zero F] [Add F] [Div F] [IntCast F] {S : Type}

theorem pathSum_mirror (N : Nat) (grid : Nat → Int → F) (d : Int) (p : List (Nat × Int)) :
    pathSum (mirror N grid) d (p.map (fun s => (s.1, (N : Int) - 1 - s.2))) = pathSum grid d p := by
  unfold pathSum
  rw [List.foldl_map]
  congr 1
  funext acc s
  simp only [mirror]
  congr 3
  omega

theorem pathFlags_mirror (N : Nat) (mask : Nat → Int → UInt8) (flag : UInt8)
    (p : List (Nat × Int)) :
    pathFlags (mirror N mask) flag (p.map (fun s => (s.1, (N : Int) - 1 - s.2))) =
      pathFlags mask flag p := by
  unfold pathFlags
  rw [List.countP_map]
  congr 1
  funext s
  simp only [mirror, Function.comp]
  congr 4
  omega

/-- **C09, partial.** Run the integrator on a grid and on its mirror image. A drift of `span ≥ 0`
channels in the first run and the opposite drift in the second (opposite offsets, same desmearing)
give mirrored rows: cell `c` of the first equals cell `N - 1 - c` of the second, bit for bit and in
any arithmetic, as long as the drift ends inside the band from that cell. The flag counters agree
too. Missing: the cells within `span` of the upper edge, where the first run averages the part of
the path inside the band while the second leaves the cell zero (`C09_edge_cells_differ`). -/
theorem C09_mirror_partial {ops ops' : SlopeOps S} {inp inp' : Input F} {grid : Nat → Int → F}
    {mask : Nat → Int → UInt8} (hin : Holds inp grid mask)
    (hview : inp.specOffset = 0 ∧ inp.rfiOffset = 0)
    (hin' : Holds inp' (mirror inp.numChannels grid) (mirror inp.numChannels mask))
    (hview' : inp'.specOffset = 0 ∧ inp'.rfiOffset = 0)
    (hN : inp'.numChannels = inp.numChannels) (hT : inp'.timeSteps = inp.timeSteps)
    {rates rates' : List (Rate S)} {off off' : Nat → Nat → Int}
    (hoff : OffsetsAre ops rates inp.timeSteps off)
    (hoff' : OffsetsAre ops' rates' inp.timeSteps off')
    (hfit : ∀ (i : Nat) (r : Rate S), rates[i]? = some r →
      Fits inp.numChannels inp.timeSteps (ops.nonneg r.slope) r.span r.desmear (off i))
    (hfit' : ∀ (i : Nat) (r : Rate S), rates'[i]? = some r →
      Fits inp.numChannels inp.timeSteps (ops'.nonneg r.slope) r.span r.desmear (off' i))
    {i i' : Nat} {r r' : Rate S} (hr : rates[i]? = some r) (hr' : rates'[i']? = some r')
    (hup : ops.nonneg r.slope = true) (hdown : ops'.nonneg r'.slope = false)
    (hspan : r'.span = -r.span) (hdes : r'.desmear = r.desmear)
    (hneg : ∀ t < inp.timeSteps, off' i' t = -off i t) :
    ∃ a a', integrateCpu ops inp rates = .ok a ∧ integrateCpu ops' inp' rates' = .ok a' ∧
      ∀ c : Int, 0 ≤ c → c < inp.numChannels → c + r.span < inp.numChannels →
        a'.plane (i' * inp.numChannels + (inp.numChannels - 1 - c)) =
          a.plane (i * inp.numChannels + c) ∧
        a'.lowsk (i' * inp.numChannels + (inp.numChannels - 1 - c)) =
          a.lowsk (i * inp.numChannels + c) ∧
        a'.highsk (i' * inp.numChannels + (inp.numChannels - 1 - c)) =
          a.highsk (i * inp.numChannels + c) ∧
        a'.rolloff (i' * inp.numChannels + (inp.numChannels - 1 - c)) =
          a.rolloff (i * inp.numChannels + c) := by
  rw [← hT] at hoff' hfit'
  rw [← hN] at hfit'
  obtain ⟨a, ha, hcell⟩ := C01_drift_plane_cell hin hview hoff hfit
  obtain ⟨b, hb, hcnt⟩ := C04_counters_mod_256 hin hview hoff hfit
  obtain ⟨a', ha', hcell'⟩ := C01_drift_plane_cell hin' hview' hoff' hfit'
  obtain ⟨b', hb', hcnt'⟩ := C04_counters_mod_256 hin' hview' hoff' hfit'
  rw [ha] at hb
  rw [ha'] at hb'
  obtain rfl := Outcome.ok.inj hb
  obtain rfl := Outcome.ok.inj hb'
  refine ⟨a, a', ha, ha', ?_⟩
  intro c h0 hc hend
  have hpath : path inp'.numChannels inp'.timeSteps (ops'.nonneg r'.slope) r'.span
      r'.desmear.toNat (off' i') ((inp.numChannels : Int) - 1 - c) =
      (path inp.numChannels inp.timeSteps (ops.nonneg r.slope) r.span r.desmear.toNat
        (off i) c).map (fun s => (s.1, (inp.numChannels : Int) - 1 - s.2)) := by
    rw [hN, hT, hdown, hup, hspan, hdes, ← path_mirror hend]
    unfold path
    refine List.flatMap_congr ?_
    intro t ht
    rw [hneg t (List.mem_range.1 ht)]
  have e1 := hcell' i' r' hr' ((inp.numChannels : Int) - 1 - c) (by omega) (by rw [hN]; omega)
  obtain ⟨l', h', o', c1', c2', c3', c4'⟩ :=
    hcnt' i' r' hr' ((inp.numChannels : Int) - 1 - c) (by omega) (by rw [hN]; omega)
  obtain ⟨l, h, o, c1, c2, c3, c4⟩ := hcnt i r hr c h0 hc
  rw [hpath] at e1 c4'
  simp only [pathFlags_mirror] at c4'
  rw [pathSum_mirror, hdes, hT] at e1
  rw [hN] at e1 c1' c2' c3'
  simp only at c4
  have hl : l' = l := UInt8.toNat_inj.1 (c4'.1.trans c4.1.symm)
  have hh : h' = h := UInt8.toNat_inj.1 (c4'.2.1.trans c4.2.1.symm)
  have ho : o' = o := UInt8.toNat_inj.1 (c4'.2.2.trans c4.2.2.symm)
  refine ⟨?_, ?_, ?_, ?_⟩
  · rw [e1, hcell i r hr c h0 hc]
  · rw [c1', c1, hl]
  · rw [c2', c2, hh]
  · rw [c3', c3, ho]

end Mirror

/-- The hypotheses of C08 are met by a 3 × 8 grid of rationals with an upward drift of two channels
and two desmear bins, at cell 1. -/
example (grid : Nat → Int → ℚ) (mask : Nat → Int → UInt8) :
    let inp := denseInput 3 8 grid mask
    Holds inp grid mask ∧ (inp.specOffset = 0 ∧ inp.rfiOffset = 0) ∧
      OffsetsAre intOps exRates inp.timeSteps exOff ∧
      (∀ (i : Nat) (r : Rate Int), exRates[i]? = some r →
        Fits inp.numChannels inp.timeSteps (intOps.nonneg r.slope) r.span r.desmear (exOff i)) ∧
      exRates[0]? = some exRates[0] ∧
      WholePath 8 3 (intOps.nonneg exRates[0].slope) exRates[0].span exRates[0].desmear.toNat
        (exOff 0) 1 := by
  refine ⟨denseInput_holds _ _ _ _, ⟨rfl, rfl⟩, ?_, ?_, rfl, ?_⟩
  · intro i r h t _
    rcases exRates_cases h with ⟨rfl, rfl⟩ | ⟨rfl, rfl⟩ <;> simp [intOps, exRates, exOff]
  · intro i r h
    rcases exRates_cases h with ⟨rfl, rfl⟩ | ⟨rfl, rfl⟩ <;>
    · simp only [Fits, intOps, exRates, exOff, denseInput]
      norm_num
      omega
  · intro t ht k hk
    simp only [exRates, List.getElem_cons_zero] at hk ⊢
    simp only [intOps, exOff]
    norm_num at hk ⊢
    omega

/-- The hypotheses of C09 are met by a drift of two channels up and its opposite. -/
example :
    let up : Rate Int := { indexInPlane := 0, slope := 1, hzPerSec := 0, span := 2, desmear := 1 }
    let down : Rate Int :=
      { indexInPlane := 0, slope := -1, hzPerSec := 0, span := -2, desmear := 1 }
    let off : Nat → Nat → Int := fun _ t => t
    let off' : Nat → Nat → Int := fun _ t => -t
    OffsetsAre intOps [up] 3 off ∧ OffsetsAre intOps [down] 3 off' ∧
      Fits 8 3 (intOps.nonneg up.slope) up.span up.desmear (off 0) ∧
      Fits 8 3 (intOps.nonneg down.slope) down.span down.desmear (off' 0) ∧
      intOps.nonneg up.slope = true ∧ intOps.nonneg down.slope = false ∧ down.span = -up.span ∧
      ∀ t < 3, off' 0 t = -off 0 t := by
  refine ⟨?_, ?_, ?_, ?_, rfl, rfl, rfl, fun _ _ => rfl⟩
  · intro i r h t _
    rcases i with _ | i <;> simp at h
    subst h; simp [intOps]
  · intro i r h t _
    rcases i with _ | i <;> simp at h
    subst h; simp [intOps]
  · simp only [Fits, intOps]; norm_num; omega
  · simp only [Fits, intOps]; norm_num; omega

/-- The rounding treats both signs alike (round to nearest and toward zero do). -/
def SymmetricRounding {p : Nat} (R : Rounding p) : Prop := ∀ x, R.r (-x) = -R.r x

theorem roundAway_neg (x : ℚ) : roundAway (-x) = -roundAway x := by
  unfold roundAway
  rcases lt_trichotomy x 0 with h | h | h
  · rw [if_pos (by linarith), if_neg (by linarith)]; omega
  · subst h
    have e : ⌊(0 : ℚ) + 1 / 2⌋ = 0 := by rw [Int.floor_eq_iff]; norm_num
    simp only [neg_zero, le_refl, if_true, e]
  · rw [if_neg (by linarith), if_pos (by linarith), neg_neg]

/-- **C09, the drift list is symmetric**: for every drift the slopes that `compute_drifts` computes
for `d` and `-d` have opposite offsets at every time step and the same number of desmear bins, so
that `C09_mirror_partial` applies to them. -/
theorem C09_opposite_drifts {R24 : Rounding 24} {R53 : Rounding 53} (h24 : SymmetricRounding R24)
    (h53 : SymmetricRounding R53) {d : Int} {T : Nat} (hd : |d| < 2 ^ 22) (hT : 2 ≤ T)
    (hT' : (T : Int) - 1 ≤ 2 ^ 24) (b : Bool) :
    let m := (Fl.ofInt R24 d).divF R24 (Fl.ofInt R24 ((T : Int) - 1))
    let m' := (Fl.ofInt R24 (-d)).divF R24 (Fl.ofInt R24 ((T : Int) - 1))
    desmearBins b m' = desmearBins b m ∧
    ∀ t < T, ∃ o : Int, (flOps R53).offAt m t = .ok o ∧ (flOps R53).offAt m' t = .ok (-o) := by
  intro m m'
  have em : m = .fin (R24.r ((d : ℚ) / ((T : ℚ) - 1))) := slope_eq R24 (by omega) hT hT'
  have em' : m' = .fin (-R24.r ((d : ℚ) / ((T : ℚ) - 1))) := by
    have h1 : m' = .fin (R24.r (((-d : Int) : ℚ) / ((T : ℚ) - 1))) :=
      slope_eq R24 (by rw [abs_neg]; omega) hT hT'
    rw [h1, ← h24]
    congr 2
    push_cast
    ring
  constructor
  · rw [em, em']
    simp only [desmearBins, abs_neg]
  · intro t ht
    obtain ⟨off, h1, _⟩ := C06_path_geometry_partial R24 R53 hd hT hT'
    obtain ⟨off', h2, _⟩ := C06_path_geometry_partial R24 R53 (d := -d) (by rwa [abs_neg]) hT hT'
    have h1t : (flOps R53).offAt m t = .ok (off t) := h1 t ht
    have h2t : (flOps R53).offAt m' t = .ok (off' t) := h2 t ht
    refine ⟨off t, h1t, ?_⟩
    rw [h2t]
    rw [em] at h1t
    rw [em'] at h2t
    simp only [flOps, toInt32] at h1t h2t
    split at h1t
    · split at h2t
      · have e1 := Outcome.ok.inj h1t
        have e2 := Outcome.ok.inj h2t
        rw [← e1, ← e2, neg_mul, h53, roundAway_neg]
      · cases h2t
    · cases h1t

/-- Round to nearest, ties to even, treats both signs alike. -/
example : SymmetricRounding (nearestEven 24 (by norm_num)) ∧
    SymmetricRounding (nearestEven 53 (by norm_num)) :=
  ⟨fun x => rne_neg 24 x, fun x => rne_neg 53 x⟩

/-- **C09 fails near the edge**: two time steps, two channels, a drift of one channel. The upward
run averages what is inside the band for cell 1; the mirrored downward run leaves its cell 0 zero. -/
theorem C09_edge_cells_differ :
    let grid : Nat → Int → Int := fun _ _ => 2
    let inp := denseInput 2 2 grid (fun _ _ => 0)
    let up : Rate Int := { indexInPlane := 0, slope := 1, hzPerSec := 0, span := 1, desmear := 1 }
    let down : Rate Int :=
      { indexInPlane := 0, slope := -1, hzPerSec := 0, span := -1, desmear := 1 }
    ∃ a a', integrateCpu intOps inp [up] = .ok a ∧ integrateCpu intOps inp [down] = .ok a' ∧
      a.plane 1 = some 1 ∧ a'.plane 0 = some 0 := by
  intro grid inp up down
  have hh := denseInput_holds 2 2 grid (fun _ _ => 0)
  have single : ∀ {r r' : Rate Int} {i : Nat}, [r][i]? = some r' → i = 0 ∧ r' = r := by
    intro r r' i h
    rcases i with _ | i <;> simp at h
    exact ⟨rfl, h.symm⟩
  obtain ⟨a, ha, hcell⟩ := C01_drift_plane_cell (ops := intOps) (inp := inp) (rates := [up])
    (off := fun _ t => t) hh ⟨rfl, rfl⟩
    (by intro i r h t _; obtain ⟨rfl, rfl⟩ := single h; simp [intOps, up])
    (by
      intro i r h; obtain ⟨rfl, rfl⟩ := single h
      simp only [Fits, intOps, up, inp, denseInput]
      norm_num
      omega)
  obtain ⟨a', ha', hcell'⟩ := C01_drift_plane_cell (ops := intOps) (inp := inp) (rates := [down])
    (off := fun _ t => -t) hh ⟨rfl, rfl⟩
    (by intro i r h t _; obtain ⟨rfl, rfl⟩ := single h; simp [intOps, down])
    (by
      intro i r h; obtain ⟨rfl, rfl⟩ := single h
      simp only [Fits, intOps, down, inp, denseInput]
      norm_num
      omega)
  refine ⟨a, a', ha, ha', ?_, ?_⟩
  · have := hcell 0 up rfl 1 (by omega) (by simp [inp, denseInput])
    simp only [inp, denseInput, intOps, up, grid] at this
    norm_num at this
    rw [this]
    decide
  · have := hcell' 0 down rfl 0 (by omega) (by simp [inp, denseInput])
    simp only [inp, denseInput, intOps, down, grid] at this
    norm_num at this
    rw [this]
    decide

end Bliss.Drift
