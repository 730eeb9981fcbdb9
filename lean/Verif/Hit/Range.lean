import Verif.Hit.RecoverFloat
import Verif.Drift.Props

/-!
# The range of `float` in drift integration (C154)

The theorems about float arithmetic let exponents be any integers. Here numbers have the range of an
IEEE `float`: results beyond the largest number are infinite (or the largest number, in some rounding
modes), results below the smallest normal number are rounded to something else, and there are NaNs.
-/

namespace Bliss.Hit

open Bliss.Drift Bliss.Float

/-- What IEEE 754 leaves to the rounding mode: rounding in the normal range, below it, and what a result
beyond the range becomes (`none`: an infinity). -/
structure Mode where
  R : Rounding 24
  small : ℚ → ℚ
  large : ℚ → Option ℚ

/-- An IEEE `float`. Simplified: one zero. -/
inductive I32 (M : Mode) where
  | fin (q : ℚ)
  | inf (neg : Bool)
  | nan

namespace I32
variable {M : Mode}

/-- The result of an operation whose exact result is `x` (IEEE 754; used by the additions and divisions at
`drift_integration_cpu.cpp:84,133,159`). -/
def round (M : Mode) (x : ℚ) : I32 M :=
  let y := if x ≠ 0 ∧ |x| < 2 ^ (-126 : ℤ) then M.small x else M.R.r x
  if |y| < 2 ^ (128 : ℤ) then .fin y
  else match M.large x with
    | some z => .fin z
    | none => .inf (decide (x < 0))

/-- Addition of floats (`drift_integration_cpu.cpp:84,133`). -/
def add : I32 M → I32 M → I32 M
  | fin a, fin b => round M (a + b)
  | nan, _ => nan
  | _, nan => nan
  | inf s, inf t => if s = t then inf s else nan
  | inf s, fin _ => inf s
  | fin _, inf t => inf t

/-- Division of floats (`drift_integration_cpu.cpp:84,133,159`). -/
def div : I32 M → I32 M → I32 M
  | fin a, fin b => if b = 0 then (if a = 0 then nan else inf (decide (a < 0))) else round M (a / b)
  | nan, _ => nan
  | _, nan => nan
  | inf _, inf _ => nan
  | inf s, fin b => inf (xor s (decide (b < 0)))
  | fin _, inf _ => fin 0

/-- The operations of `drift_integration_cpu.cpp:84,133,159` on floats. -/
instance : Zero (I32 M) := ⟨fin 0⟩
instance : Add (I32 M) := ⟨add⟩
instance : Div (I32 M) := ⟨div⟩
instance : IntCast (I32 M) := ⟨fun n => round M n⟩

theorem round_fin {x : ℚ} (h : x = 0 ∨ 2 ^ (-126 : ℤ) ≤ x) (hx : x ≤ 2 ^ (127 : ℤ)) :
    round M x = fin (M.R.r x) := by
  have h0 : (0 : ℚ) < 2 ^ (-126 : ℤ) := by positivity
  have hx0 : 0 ≤ x := by rcases h with rfl | h <;> linarith
  have h1 : ¬ (x ≠ 0 ∧ |x| < 2 ^ (-126 : ℤ)) := by
    rintro ⟨h1, h2⟩
    rw [abs_of_nonneg hx0] at h2
    rcases h with h | h
    · exact h1 h
    · linarith
  have h2 : |M.R.r x| < 2 ^ (128 : ℤ) := by
    rw [abs_of_nonneg (M.R.nonneg hx0)]
    have e := M.R.mono _ _ hx
    have e' := M.R.exact 1 127 (by norm_num)
    rw [Int.cast_one, one_mul] at e'
    rw [e'] at e
    exact lt_of_le_of_lt e (by norm_num)
  simp only [round, if_neg h1, if_pos h2]

end I32

/-! ## Specification -/

/-- A power sample that is neither extremely small nor extremely large. -/
def Usual (x : ℚ) : Prop := x = 0 ∨ 2 ^ (-78 : ℤ) ≤ x ∧ x ≤ 2 ^ (100 : ℤ)

/-! ## Proofs -/

theorem Rounding.between {p : Nat} (R : Rounding p) {x : ℚ} {a : ℤ} (hp : 1 ≤ p) (h : x = 0 ∨ (2 : ℚ) ^ a ≤ x) :
    R.r x = 0 ∨ (2 : ℚ) ^ a ≤ R.r x := by
  rcases h with rfl | h
  · exact .inl R.zero
  · right
    have e := R.mono _ _ h
    have e' := R.exact 1 a (by
      rw [abs_one]
      exact one_le_pow₀ (by norm_num))
    rw [Int.cast_one, one_mul] at e'
    rwa [e'] at e

theorem line_inside {N T : Nat} {up : Bool} {span : Int} {d : Nat} {off : Nat → Int} {c : Int}
    {D : Int} (hf : Fits N T up span D off) (h0 : 0 ≤ c) (hN : c < N) {s : Nat × Int}
    (hs : s ∈ path N T up span d off c) : s.1 < T ∧ 0 ≤ s.2 ∧ s.2 < N := by
  unfold path at hs
  simp only [List.mem_flatMap, List.mem_range, List.mem_filterMap, Option.map_eq_some_iff] at hs
  obtain ⟨t, ht, k, -, ch, hch, rfl⟩ := hs
  unfold pathChannel at hch
  unfold Fits at hf
  refine ⟨ht, ?_⟩
  cases up with
  | true =>
    simp only [if_true] at hf hch
    have := hf t ht
    split at hch
    · cases hch; simp only; omega
    · cases hch
  | false =>
    simp only [Bool.false_eq_true, if_false] at hf hch
    have := hf.2.2 t ht
    split at hch
    · cases hch; simp only; omega
    · cases hch

theorem line_length_le (N T : Nat) (up : Bool) (span : Int) (d : Nat) (off : Nat → Int) (c : Int) :
    (path N T up span d off c).length ≤ T * d := by
  unfold path
  rw [List.length_flatMap]
  have : ∀ l : List Nat, (l.map fun t => ((List.range d).filterMap fun k =>
      (pathChannel N up span (off t) k c).map fun ch => (t, ch)).length).sum ≤ l.length * d := by
    intro l
    induction l with
    | nil => simp
    | cons t l ih =>
      rw [List.map_cons, List.sum_cons, List.length_cons]
      have := List.length_filterMap_le (fun k => (pathChannel N up span (off t) k c).map fun ch => (t, ch))
        (List.range d)
      rw [List.length_range] at this
      nlinarith
  simpa using this (List.range T)

/-- The sum along a line. -/
theorem sum_in_range (M : Mode) (g : Nat → Int → ℚ) {D : Int} (hD : 1 ≤ D) (hD24 : D ≤ 2 ^ 24)
    (l : List (Nat × Int)) (hl : ∀ s ∈ l, Usual (g s.1 s.2)) (n : Nat) (hn : n + l.length ≤ 2 ^ 24)
    (x : ℚ) (hx : x = 0 ∨ 2 ^ (-102 : ℤ) ≤ x) (hxn : x ≤ n * 2 ^ (100 : ℤ)) :
    ∃ y : ℚ, l.foldl (fun acc s => acc + I32.fin (g s.1 s.2) / (D : I32 M)) (I32.fin x) = .fin y ∧
      l.foldl (fun acc s => acc + (⟨g s.1 s.2⟩ : F32 M.R) / (D : F32 M.R)) ⟨x⟩ = ⟨y⟩ ∧
      (y = 0 ∨ 2 ^ (-102 : ℤ) ≤ y) ∧ y ≤ ((n + l.length : Nat) : ℚ) * 2 ^ (100 : ℤ) := by
  induction l generalizing n x with
  | nil => exact ⟨x, rfl, rfl, hx, by simpa using hxn⟩
  | cons s l ih =>
    have hDq : (1 : ℚ) ≤ D := by exact_mod_cast hD
    have hDq' : (D : ℚ) ≤ 2 ^ 24 := by exact_mod_cast hD24
    have hRD : M.R.r (D : ℚ) = D := M.R.int D (by rw [abs_of_nonneg (by omega)]; exact hD24)
    have hDf : (D : I32 M) = .fin D := by
      show I32.round M (D : ℚ) = _
      rw [I32.round_fin (.inr (le_trans (by norm_num) hDq)) (le_trans hDq' (by norm_num)), hRD]
    -- the quotient
    obtain ⟨q1, q2, q3⟩ : (g s.1 s.2 / D = 0 ∨ (2 : ℚ) ^ (-102 : ℤ) ≤ g s.1 s.2 / D) ∧
        g s.1 s.2 / D ≤ 2 ^ (100 : ℤ) ∧ 0 ≤ g s.1 s.2 / D := by
      rcases hl s (by simp) with h | ⟨h1, h2⟩
      · rw [h, zero_div]
        exact ⟨.inl rfl, by positivity, le_rfl⟩
      · have hp : (0 : ℚ) < 2 ^ (-78 : ℤ) := by positivity
        refine ⟨.inr ?_, ?_, div_nonneg (by linarith) (by linarith)⟩
        · rw [le_div_iff₀ (by linarith)]
          calc (2 : ℚ) ^ (-102 : ℤ) * D ≤ 2 ^ (-102 : ℤ) * 2 ^ 24 :=
                mul_le_mul_of_nonneg_left hDq' (by positivity)
            _ = 2 ^ (-78 : ℤ) := by norm_num
            _ ≤ _ := h1
        · rw [div_le_iff₀ (by linarith)]
          nlinarith [show (0 : ℚ) < 2 ^ (100 : ℤ) by positivity]
    have hquo : (I32.fin (g s.1 s.2) / (D : I32 M) : I32 M) = .fin (M.R.r (g s.1 s.2 / D)) := by
      rw [hDf]
      show (if (D : ℚ) = 0 then _ else I32.round M (g s.1 s.2 / D)) = _
      rw [if_neg (by linarith), I32.round_fin (q1.imp_right fun h => le_trans (by norm_num) h)
        (le_trans q2 (by norm_num))]
    have hquo' : ((⟨g s.1 s.2⟩ : F32 M.R) / (D : F32 M.R)) = ⟨M.R.r (g s.1 s.2 / D)⟩ := by
      ext
      rw [F32.div_val, F32.int_val, hRD]
    have r1 := Rounding.between M.R (by norm_num) q1
    have r2 : M.R.r (g s.1 s.2 / D) ≤ 2 ^ (100 : ℤ) := by
      have e := M.R.mono _ _ q2
      have e' := M.R.exact 1 100 (by norm_num)
      rw [Int.cast_one, one_mul] at e'
      rwa [e'] at e
    have r3 := M.R.nonneg q3
    generalize M.R.r (g s.1 s.2 / D) = z at *
    -- the sum
    have hx0 : 0 ≤ x := by
      rcases hx with rfl | h
      · exact le_rfl
      · exact le_trans (by positivity) h
    have s1 : x + z = 0 ∨ (2 : ℚ) ^ (-102 : ℤ) ≤ x + z := by
      rcases hx with rfl | h
      · simpa using r1
      · right; linarith
    have s2 : x + z ≤ ((n + 1 : Nat) : ℚ) * 2 ^ (100 : ℤ) := by
      push_cast
      rw [add_mul, one_mul]
      linarith
    have hn' : ((n + 1 : Nat) : ℚ) ≤ 2 ^ 24 := by
      have : n + 1 ≤ 2 ^ 24 := by rw [List.length_cons] at hn; omega
      exact_mod_cast this
    have hsum : (I32.fin x + I32.fin z : I32 M) = .fin (M.R.r (x + z)) := by
      show I32.round M (x + z) = _
      rw [I32.round_fin (s1.imp_right fun h => le_trans (by norm_num) h)]
      calc x + z ≤ _ := s2
        _ ≤ 2 ^ 24 * 2 ^ (100 : ℤ) := mul_le_mul_of_nonneg_right hn' (by positivity)
        _ ≤ 2 ^ (127 : ℤ) := by norm_num
    have t2 : M.R.r (x + z) ≤ ((n + 1 : Nat) : ℚ) * 2 ^ (100 : ℤ) := by
      have e := M.R.mono _ _ s2
      have e' := M.R.exact ((n + 1 : Nat) : ℤ) 100 (by
        rw [abs_of_nonneg (by positivity)]
        rw [List.length_cons] at hn
        have : n + 1 ≤ 2 ^ 24 := by omega
        exact_mod_cast this)
      rw [show (((n + 1 : Nat) : ℤ) : ℚ) = ((n + 1 : Nat) : ℚ) from by push_cast; rfl] at e'
      rwa [e'] at e
    obtain ⟨y, y1, y2, y3, y4⟩ := ih (fun s hs => hl s (by simp [hs])) (n + 1)
      (by rw [List.length_cons] at hn; omega) (M.R.r (x + z)) (Rounding.between M.R (by norm_num) s1) t2
    refine ⟨y, ?_, ?_, y3, ?_⟩
    · rw [List.foldl_cons, hquo, hsum, y1]
    · rw [List.foldl_cons, hquo']
      exact y2
    · rw [List.length_cons, show n + (l.length + 1) = n + 1 + l.length by omega]
      exact y4

/-- **C154.** For power samples that are 0 or between 2^-78 and 2^100, drift integration in IEEE floats
gives in every cell the number that it gives with unbounded exponents; there is no overflow, no
underflow and no NaN. -/
theorem C154_range_does_not_matter {S : Type} (M : Mode) {ops : SlopeOps S} (g : Nat → Int → ℚ)
    {mask mask' : Nat → Int → UInt8} {inp : Input (I32 M)} {inp' : Input (F32 M.R)}
    (hin : Holds inp (fun t c => .fin (g t c)) mask) (hin' : Holds inp' (fun t c => ⟨g t c⟩) mask')
    (hview : inp.specOffset = 0 ∧ inp.rfiOffset = 0) (hview' : inp'.specOffset = 0 ∧ inp'.rfiOffset = 0)
    {T N : Nat} (hT : inp.timeSteps = T) (hN : inp.numChannels = N) (hT' : inp'.timeSteps = T)
    (hN' : inp'.numChannels = N) {rates : List (Rate S)} {off : Nat → Nat → Int}
    (hoff : OffsetsAre ops rates T off)
    (hfit : ∀ (i : Nat) (r : Rate S), rates[i]? = some r →
      Fits N T (ops.nonneg r.slope) r.span r.desmear (off i))
    (hT1 : 1 ≤ T) (hlen : ∀ r ∈ rates, 1 ≤ r.desmear ∧ T * r.desmear ≤ 2 ^ 24)
    (hg : ∀ (t : Nat) (c : Int), t < T → 0 ≤ c → c < N → Usual (g t c)) :
    ∃ a a', integrateCpu ops inp rates = .ok a ∧ integrateCpu ops inp' rates = .ok a' ∧
      ∀ (i : Nat) (r : Rate S), rates[i]? = some r → ∀ c : Int, 0 ≤ c → c < N →
        ∃ x : ℚ, a.plane (i * N + c) = some (.fin x) ∧ a'.plane (i * N + c) = some ⟨x⟩ := by
  obtain ⟨a, ha, h1⟩ := C01_drift_plane_cell hin hview (rates := rates) (off := off) (ops := ops)
    (by rw [hT]; exact hoff) (by rw [hT, hN]; exact hfit)
  obtain ⟨a', ha', h1'⟩ := C01_drift_plane_cell hin' hview' (rates := rates) (off := off) (ops := ops)
    (by rw [hT']; exact hoff) (by rw [hT', hN']; exact hfit)
  rw [hT, hN] at h1
  rw [hT', hN'] at h1'
  refine ⟨a, a', ha, ha', fun i r hr c hc hcN => ?_⟩
  obtain ⟨hd1, hd2⟩ := hlen r (List.mem_of_getElem? hr)
  have hTi : (1 : Int) ≤ T := by exact_mod_cast hT1
  have hlenp := line_length_le N T (ops.nonneg r.slope) r.span r.desmear.toNat (off i) c
  have hl24 : (path N T (ops.nonneg r.slope) r.span r.desmear.toNat (off i) c).length ≤ 2 ^ 24 := by
    refine le_trans hlenp ?_
    have : ((T * r.desmear.toNat : Nat) : Int) ≤ 2 ^ 24 := by
      push_cast
      rw [Int.toNat_of_nonneg (by omega)]
      exact hd2
    exact_mod_cast this
  obtain ⟨y, y1, y2, y3, y4⟩ := sum_in_range M g hd1 (by nlinarith) _
    (fun s hs => by
      obtain ⟨p1, p2, p3⟩ := line_inside (hfit i r hr) hc hcN hs
      exact hg _ _ p1 p2 p3) 0 (by rw [Nat.zero_add]; exact hl24) 0 (.inl rfl) (by simp)
  have hTq : (1 : ℚ) ≤ T := by exact_mod_cast hT1
  have hT24 : (T : Int) ≤ 2 ^ 24 := by nlinarith
  have hTq' : (T : ℚ) ≤ 2 ^ 24 := by exact_mod_cast hT24
  have hRT : M.R.r ((T : Int) : ℚ) = T := by
    rw [M.R.int (T : Int) (by rw [abs_of_nonneg (by omega)]; exact hT24)]
    push_cast; rfl
  have hy0 : 0 ≤ y := by
    rcases y3 with rfl | h
    · exact le_rfl
    · exact le_trans (by positivity) h
  refine ⟨M.R.r (y / T), ?_, ?_⟩
  · rw [h1 i r hr c hc hcN]
    have e1 : pathSum (fun t c => I32.fin (M := M) (g t c)) r.desmear
        (path N T (ops.nonneg r.slope) r.span r.desmear.toNat (off i) c) = .fin y := y1
    have e2 : (((T : Int)) : I32 M) = .fin T := by
      show I32.round M ((T : Int) : ℚ) = _
      rw [I32.round_fin, hRT]
      · right
        push_cast
        exact le_trans (by norm_num) hTq
      · push_cast
        exact le_trans hTq' (by norm_num)
    rw [e1, e2]
    show some (if (T : ℚ) = 0 then _ else I32.round M (y / T)) = _
    rw [if_neg (by linarith), I32.round_fin]
    · refine y3.imp (fun h => by rw [h, zero_div]) fun h => ?_
      rw [le_div_iff₀ (by linarith)]
      calc (2 : ℚ) ^ (-126 : ℤ) * T ≤ 2 ^ (-126 : ℤ) * 2 ^ 24 :=
            mul_le_mul_of_nonneg_left hTq' (by positivity)
        _ = 2 ^ (-102 : ℤ) := by norm_num
        _ ≤ y := h
    · rw [div_le_iff₀ (by linarith)]
      have : y ≤ 2 ^ 24 * 2 ^ (100 : ℤ) := by
        refine le_trans y4 (mul_le_mul_of_nonneg_right ?_ (by positivity))
        rw [Nat.zero_add]
        exact_mod_cast hl24
      have h2 : (2 : ℚ) ^ 24 * 2 ^ (100 : ℤ) ≤ 2 ^ (127 : ℤ) := by norm_num
      nlinarith [show (0 : ℚ) < 2 ^ (127 : ℤ) by positivity]
  · rw [h1' i r hr c hc hcN]
    have e1 : pathSum (fun t c => (⟨g t c⟩ : F32 M.R)) r.desmear
        (path N T (ops.nonneg r.slope) r.span r.desmear.toNat (off i) c) = ⟨y⟩ := y2
    rw [e1]
    congr 1
    ext
    rw [F32.div_val, F32.int_val, hRT]

/-- One rate without drift. -/
def stillRate : Rate Int := { indexInPlane := 0, slope := 0, hzPerSec := 0, span := 0, desmear := 1 }

/-- **C154 (what the range does).** The sum is divided by the number of time steps only at its end. Two
samples of `2^127`, a finite float, have the mean `2^127`, and their cell is infinite. -/
theorem C154_overflow (M : Mode) (hM : ∀ x, M.large x = none) :
    ∃ a, integrateCpu intOps (denseInput 2 1 (fun _ _ => (I32.fin (2 ^ (127 : ℤ)) : I32 M)) fun _ _ => 0)
        [stillRate] = .ok a ∧ a.plane 0 = some (.inf false) := by
  obtain ⟨a, ha, h⟩ := C01_drift_plane_cell (ops := intOps) (rates := [stillRate]) (off := fun _ _ => 0)
    (denseInput_holds 2 1 (fun _ _ => (I32.fin (2 ^ (127 : ℤ)) : I32 M)) fun _ _ => 0) ⟨rfl, rfl⟩
    (by
      intro i r hr t _
      rcases i with _ | i
      · cases hr
        simp [intOps, stillRate]
      · simp at hr)
    (by
      intro i r hr
      rcases i with _ | i
      · cases hr
        intro t _
        simp [stillRate, denseInput]
      · simp at hr)
  refine ⟨a, ha, ?_⟩
  have e := h 0 stillRate rfl 0 le_rfl (by simp [denseInput])
  have hp : path 1 2 true 0 1 (fun _ => 0) 0 = [(0, 0), (1, 0)] := by decide +kernel
  rw [show ((0 : Nat) : Int) * (denseInput 2 1 (fun _ _ => (I32.fin (2 ^ (127 : ℤ)) : I32 M))
    fun _ _ => 0).numChannels + 0 = 0 from by simp] at e
  rw [e]
  change some (pathSum (fun _ _ => (I32.fin (2 ^ (127 : ℤ)) : I32 M)) 1 (path 1 2 true 0 1 (fun _ => 0) 0) /
    ((2 : Int) : I32 M)) = _
  rw [hp]
  have h1 : ((1 : Int) : I32 M) = .fin 1 := by
    show I32.round M ((1 : Int) : ℚ) = _
    rw [I32.round_fin (.inr (by norm_num)) (by norm_num), M.R.int 1 (by norm_num)]
    norm_num
  have h2 : ((2 : Int) : I32 M) = .fin 2 := by
    show I32.round M ((2 : Int) : ℚ) = _
    rw [I32.round_fin (.inr (by norm_num)) (by norm_num), M.R.int 2 (by norm_num)]
    norm_num
  have hr : ∀ e : ℤ, M.R.r ((2 : ℚ) ^ e) = 2 ^ e := by
    intro e
    have := M.R.exact 1 e (by norm_num)
    rwa [Int.cast_one, one_mul] at this
  have h3 : (I32.fin (2 ^ (127 : ℤ)) / .fin 1 : I32 M) = .fin (2 ^ (127 : ℤ)) := by
    change (if (1 : ℚ) = 0 then (if (2 : ℚ) ^ (127 : ℤ) = 0 then .nan else .inf (decide ((2 : ℚ) ^ (127 : ℤ) < 0)))
      else I32.round M (2 ^ (127 : ℤ) / 1)) = _
    rw [if_neg one_ne_zero, div_one, I32.round_fin (.inr (by norm_num)) le_rfl, hr]
  have h4 : ((0 : I32 M) + .fin (2 ^ (127 : ℤ))) = .fin (2 ^ (127 : ℤ)) := by
    show I32.round M (0 + 2 ^ (127 : ℤ)) = _
    rw [zero_add, I32.round_fin (.inr (by norm_num)) le_rfl, hr]
  have h5 : (I32.fin (2 ^ (127 : ℤ)) + .fin (2 ^ (127 : ℤ)) : I32 M) = .inf false := by
    show I32.round M (2 ^ (127 : ℤ) + 2 ^ (127 : ℤ)) = _
    rw [show (2 : ℚ) ^ (127 : ℤ) + 2 ^ (127 : ℤ) = 2 ^ (128 : ℤ) by norm_num]
    have c1 : ¬ ((2 : ℚ) ^ (128 : ℤ) ≠ 0 ∧ |(2 : ℚ) ^ (128 : ℤ)| < 2 ^ (-126 : ℤ)) := by
      rw [abs_of_pos (by positivity)]
      norm_num
    have c2 : ¬ |(2 : ℚ) ^ (128 : ℤ)| < 2 ^ (128 : ℤ) := by
      rw [abs_of_pos (by positivity)]
      exact lt_irrefl _
    have c3 : decide ((2 : ℚ) ^ (128 : ℤ) < 0) = false := by
      rw [decide_eq_false_iff_not, not_lt]
      positivity
    simp only [I32.round, if_neg c1, hr, if_neg c2, hM, c3]
  show some (((0 : I32 M) + .fin (2 ^ (127 : ℤ)) / ((1 : Int) : I32 M) +
    .fin (2 ^ (127 : ℤ)) / ((1 : Int) : I32 M)) / ((2 : Int) : I32 M)) = _
  rw [h1, h2, h3, h4, h5]
  rfl

/-- The IEEE default: to nearest, with subnormal numbers, and infinities beyond the range. -/
def defaultMode : Mode where
  R := nearestEven 24 (by norm_num)
  small x := round (x * 2 ^ (149 : ℤ)) * 2 ^ (-149 : ℤ)
  large _ := none

/-- The hypotheses are met: three time steps of eight channels, samples from 0 to 7, drifting up with
desmearing and down. -/
example : ∃ a a', integrateCpu intOps (denseInput 3 8 (fun _ c => (I32.fin c : I32 defaultMode)) fun _ _ => 0)
      exRates = .ok a ∧
    integrateCpu intOps (denseInput 3 8 (fun _ c => (⟨c⟩ : F32 defaultMode.R)) fun _ _ => 0) exRates = .ok a' ∧
    ∀ (i : Nat) (r : Rate Int), exRates[i]? = some r → ∀ c : Int, 0 ≤ c → c < (8 : Nat) →
      ∃ x : ℚ, a.plane (i * (8 : Nat) + c) = some (.fin x) ∧ a'.plane (i * (8 : Nat) + c) = some ⟨x⟩ := by
  refine C154_range_does_not_matter defaultMode (fun _ c => (c : ℚ)) (denseInput_holds 3 8 _ _)
    (denseInput_holds 3 8 _ _) ⟨rfl, rfl⟩ ⟨rfl, rfl⟩ (T := 3) (N := 8) rfl rfl rfl rfl (off := exOff) ?_ ?_
    (by norm_num) ?_ ?_
  · intro i r h t _
    rcases exRates_cases h with ⟨rfl, rfl⟩ | ⟨rfl, rfl⟩ <;> simp [intOps, exRates, exOff]
  · intro i r h
    rcases exRates_cases h with ⟨rfl, rfl⟩ | ⟨rfl, rfl⟩
    · simp only [Fits, intOps, exRates, exOff, List.getElem_cons_zero]
      simp only [show decide ((0:Int) ≤ 1) = true from rfl, if_true]
      intro t ht; omega
    · simp only [Fits, intOps, exRates, exOff, List.getElem_cons_zero, List.getElem_cons_succ]
      simp only [show decide ((0:Int) ≤ -2) = false from rfl, Bool.false_eq_true, if_false]
      refine ⟨by omega, by omega, fun t ht => ?_⟩
      simp only [Nat.one_ne_zero, if_false]; omega
  · decide
  · intro t c _ h0 h8
    rcases eq_or_lt_of_le h0 with rfl | h
    · left; norm_num
    · right
      have h1 : (1 : ℚ) ≤ c := by exact_mod_cast h
      have h2 : (c : ℚ) ≤ 8 := by exact_mod_cast (show c ≤ 8 by omega)
      exact ⟨le_trans (by norm_num) h1, le_trans h2 (by norm_num)⟩

end Bliss.Hit
