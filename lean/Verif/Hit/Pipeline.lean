import Verif.Hit.Gain
import Verif.Hit.EndToEnd
import Verif.Flag.Noise
import Verif.Flag.Rolloff
import Verif.Stat.Moment

/-!
# Flagging, noise estimate and search of a channel (C117)

The steps of `bliss_find_hits` (bliss/bliss_find_hits.cpp lines 113-136) on a coarse channel in host
memory: `flag_filter_rolloff`, `flag_spectral_kurtosis`, `estimate_noise_power` of the unflagged
samples, `integrate_drifts`, `hit_search`, `filter_hits`. Left out are `normalize`, which is undefined
on the data of a channel (C76), and `flag_sigmaclip`, which throws on `float` data (C62).
-/

namespace Bliss.Hit

open Bliss.Drift Bliss.Comp Bliss.Float Bliss.Nd Bliss.Stat Bliss.Flag

variable {F D : Type}

/-- The samples of a memory, as the integrator sees them. -/
def numHeap (h : Heap (Val F)) : Heap F where
  mem b i := match h.mem b i with
    | some (.num x) => some x
    | _ => none
  next := h.next

section
variable [Zero F] [Add F] [Sub F] [Div F] [IntCast F] [LT F] [DecidableLT F] [OfNat F 2]

/-- The steps on one channel (bliss/bliss_find_hits.cpp lines 117-136; flaggers/filter_rolloff.cpp
lines 12-26, flaggers/spectral_kurtosis.cpp lines 27-45, estimators/noise_estimate.cpp lines 137-179,
drift_search/integrate_drifts.cpp lines 51-79, hit_search.cpp lines 17-67, filter_hits.cpp lines
13-61). `data` and `mask` are the arrays of the channel. Simplified: the data is one array, where the
program reads equal data from the file at every access. -/
def searchFlagged (R24 : Rounding 24) (R53 : Rounding 53) (hz : Fl → Fl) (ar : Arith F Fl)
    (fltMin : F) (junk : Coord → Int) (cc : Channel Fl) (width : Int → Int) (so : SkOps F)
    (lt gt : F → Bool) (nsk : Int) (d : F) (o : StatOps F D) (ro : RateOptions) (op : Options F)
    (tiny : Fl → Bool) (zeroDrift : Bool) (data mask : Arr) (j : Nat → Nat → Int → Val F)
    (h : Heap (Val F)) : Outcome (List (Hit F Fl)) := do
  let s ← Flag.flagRolloff width (j 0 0) (j 0 1) (.arr mask) h
  let m ← s.2.get s.1
  let f ← flagSk so lt gt nsk d data m.2 (j 1) m.1
  let n ← estimateNoise o .stddev true data f.2 (j 2) f.1
  let inp ← inputOf (numHeap n.1) data (flagHeap n.1) f.2
  let power ← n.2.noisePower n.1
  let floor ← n.2.noiseFloor n.1
  let hits ← driftSearch R24 R53 hz ar fltMin junk cc inp ro power floor op
  pure (filterHits tiny zeroDrift hits)

end

/-! ## Specification -/

/-- The samples of channel `c`, from the first to the last time step. -/
def column (T : Nat) (c : Int) : List (List Int) := (List.range T).map fun t : Nat => [(t : Int), c]

/-- All samples, one time step after the other. -/
def samples (T N : Nat) : List (List Int) :=
  (List.range T).flatMap fun t : Nat => (List.range N).map fun c : Nat => [(t : Int), (c : Int)]

/-- A function of time step and channel as contents of an array. -/
def onIdx {α : Type} (X : Nat → Int → α) (i : List Int) : α := X (i.getD 0 0).toNat (i.getD 1 0)

/-- The flags of a channel: 1 in the first `k` and the last `k + 1` channels, 2 or 4 where the spectral
kurtosis is below or above the limits. -/
def flagsOf (so : SkOps F) (lt gt : F → Bool) (nsk : Int) (d : F) (k : Int) (T N : Nat)
    (X : Nat → Int → F) (_ : Nat) (c : Int) : UInt8 :=
  (if c < k ∨ (N : Int) - (k + 1) ≤ c then 1 else 0) |||
    (if lt (skOf so nsk T d (onIdx X) (column T c)) then 2 else 0) |||
    (if gt (skOf so nsk T d (onIdx X) (column T c)) then 4 else 0)

/-- The samples without a flag. -/
def clean (T N : Nat) (Q : Nat → Int → UInt8) : List (List Int) :=
  (samples T N).filter fun i => onIdx Q i = 0

/-- Mean of the listed samples, as the program computes it. -/
def floorOf (o : StatOps F D) (X : Nat → Int → F) (l : List (List Int)) : F :=
  o.toV (o.div (l.foldl (fun acc i => o.add acc (o.toD (onIdx X i))) o.zero) (o.ofInt l.length))

/-- Standard deviation of the listed samples, as the program computes it. -/
def powerOf (o : StatOps F D) (X : Nat → Int → F) (l : List (List Int)) : F :=
  mdevFinish o (l.foldl (fun acc i => mdevStep o acc (onIdx X i)) (o.zero, o.zero, 0))

/-- A channel of `T` time steps and `N` fine channels with samples `X` and no flags, as it comes from a
file: two dense arrays in memory, in blocks `bd` and `bm`. -/
structure Loaded (h : Heap (Val F)) (T N : Nat) (X : Nat → Int → F) (bd bm : Nat) : Prop where
  apart : bd ≠ bm
  dataIn : bd < h.next
  maskIn : bm < h.next
  data : h.Contains (dense bd [(T : Int), (N : Int)]) (fun i => .num (onIdx X i))
  mask : h.Contains (dense bm [(T : Int), (N : Int)]) (fun _ => .flag 0)

/-- The flagging options fit the channel: `k` channels, at least one, are flagged below and `k + 1`
above, and the number of samples of the kurtosis estimate fits an `int32_t`. -/
structure FlagRange (width : Int → Int) (nsk : Int) (T N : Nat) (k : Int) : Prop where
  steps : 1 ≤ T
  count : width N = k
  some : 1 ≤ k
  fits : 2 * k + 1 ≤ N
  overflow : -2 ^ 31 ≤ T * nsk ∧ T * nsk < 2 ^ 31

/-! ## Larger buffers give the same result -/

/-- The arrays of `b` are part of larger allocations with the same contents. -/
structure Within (b c : Input F) : Prop where
  spec : ∀ i x, b.spec i = some x → c.spec i = some x
  rfi : ∀ i x, b.rfi i = some x → c.rfi i = some x
  strides : b.specStride0 = c.specStride0 ∧ b.specStride1 = c.specStride1 ∧
    b.rfiStride0 = c.rfiStride0 ∧ b.rfiStride1 = c.rfiStride1
  sizes : b.timeSteps = c.timeSteps ∧ b.numChannels = c.numChannels

/-- Whatever the first returns, the second does too. -/
def Refines {α : Type} (x y : Outcome α) : Prop := ∀ r, x = .ok r → y = .ok r

theorem Refines.rfl' {α : Type} (x : Outcome α) : Refines x x := fun _ h => h

theorem Refines.bind {α β : Type} {x y : Outcome α} {f g : α → Outcome β} (h : Refines x y)
    (hf : ∀ a, Refines (f a) (g a)) : Refines (x >>= f) (y >>= g) := by
  intro r hr
  cases x with
  | ok a => rw [h a rfl]; exact hf a r hr
  | throws e => cases hr
  | ub => cases hr

theorem Refines.loop {σ : Type} {f g : Nat → σ → Outcome σ} (h : ∀ i s, Refines (f i s) (g i s))
    (n : Nat) (s : σ) : Refines (forLoop n f s) (forLoop n g s) := by
  induction n with
  | zero => exact Refines.rfl' _
  | succ n ih =>
    rw [forLoop_succ, forLoop_succ]
    exact ih.bind fun a => h n a

theorem Refines.load {α : Type} {b c : Buf α} (h : ∀ i x, b i = some x → c i = some x) (i : Int) :
    Refines (b.load i) (c.load i) := by
  intro r hr
  unfold Buf.load at hr ⊢
  cases hb : b i with
  | none => rw [hb] at hr; cases hr
  | some x => rw [hb] at hr; rw [h i x hb]; exact hr

section
variable [Zero F] [Add F] [Sub F] [Div F] [IntCast F] [LT F] [DecidableLT F] [OfNat F 2]

omit [Zero F] [Sub F] [LT F] [DecidableLT F] [OfNat F 2] in
theorem channelBody_within {b c : Input F} (w : Within b c) (k : Int) (st : Acc F × Ptrs) :
    Refines (channelBody b k st) (channelBody c k st) := by
  obtain ⟨a, p⟩ := st
  unfold channelBody
  dsimp only
  rw [w.strides.2.1, w.strides.2.2.2]
  refine (Refines.rfl' _).bind fun cur => ?_
  refine (Refines.load w.spec _).bind fun x => ?_
  refine (Refines.rfl' _).bind fun pl => ?_
  refine (Refines.load w.rfi _).bind fun fl => ?_
  exact Refines.rfl' _

omit [Zero F] [Sub F] [LT F] [DecidableLT F] [OfNat F 2] in
theorem addRange_within {b c : Input F} (w : Within b c) (k : Int) (di t : Nat) (s e q : Int)
    (a : Acc F) : Refines (addRange b k di t s e q a) (addRange c k di t s e q a) := by
  unfold addRange
  dsimp only
  rw [w.strides.1, w.strides.2.1, w.strides.2.2.1, w.strides.2.2.2, w.sizes.2]
  refine (Refines.loop (fun _ st => channelBody_within w k st) _ _).bind fun r => Refines.rfl' _

omit [Sub F] [LT F] [DecidableLT F] [OfNat F 2] in
theorem integrateCpu_within {S : Type} {b c : Input F} (w : Within b c) (ops : SlopeOps S)
    (rates : List (Rate S)) : Refines (integrateCpu ops b rates) (integrateCpu ops c rates) := by
  unfold integrateCpu
  rw [w.sizes.1, w.sizes.2]
  refine (Refines.loop (fun i a => ?_) _ _).bind fun a => Refines.rfl' _
  unfold rateBody
  cases rates[i]? with
  | none => exact Refines.rfl' _
  | some r =>
    dsimp only
    unfold driftBody
    rw [w.sizes.1]
    refine Refines.loop (fun t a => ?_) _ _
    unfold timeBody
    refine (Refines.rfl' _).bind fun off => Refines.loop (fun k a => ?_) _ _
    unfold desmearBody
    dsimp only
    rw [w.sizes.2]
    split
    · exact addRange_within w _ _ _ _ _ _ _
    · split
      · exact addRange_within w _ _ _ _ _ _ _
      · exact addRange_within w _ _ _ _ _ _ _

theorem driftSearch_within {b c : Input F} (w : Within b c) (R24 : Rounding 24) (R53 : Rounding 53)
    (hz : Fl → Fl) (ar : Arith F Fl) (fltMin : F) (junk : Coord → Int) (cc : Channel Fl)
    (ro : RateOptions) (p f : F) (o : Options F) :
    Refines (driftSearch R24 R53 hz ar fltMin junk cc b ro p f o)
      (driftSearch R24 R53 hz ar fltMin junk cc c ro p f o) := by
  unfold driftSearch
  have hi : Refines (integrateDrifts R24 R53 hz b ro) (integrateDrifts R24 R53 hz c ro) := by
    unfold integrateDrifts
    rw [w.sizes.1]
    refine (Refines.rfl' _).bind fun rates => ?_
    cases rates with
    | nil => exact Refines.rfl' _
    | cons r rs => exact (integrateCpu_within w _ _).bind fun a => Refines.rfl' _
  refine hi.bind fun r => ?_
  obtain ⟨a, rates⟩ := r
  have hp : planeOf b a rates = planeOf c a rates := by
    unfold planeOf
    rw [w.sizes.1, w.sizes.2]
  dsimp only
  rw [hp]
  exact Refines.rfl' _

end

/-! ## The order in which the program visits the samples -/

theorem order_column (T N : Nat) (c : Int) :
    order [(T : Int), (N : Int)] [0] [c] = column T c := by
  have h1 : redAxes 2 [0] = [0] := rfl
  have h2 : keptAxes 2 [0] = [1] := by decide
  simp [order, h1, h2, slab, ldOf, cells, unravel, place, column]

theorem range_mul (T N : Nat) : List.range (T * N) =
    (List.range T).flatMap fun t => (List.range N).map fun c => t * N + c := by
  induction T with
  | zero => simp
  | succ T ih =>
    rw [Nat.succ_mul, List.range_add, ih, List.range_succ, List.flatMap_append]
    simp

theorem order_samples (T N : Nat) : order [(T : Int), (N : Int)] [] [0] = samples T N := by
  have h1 : redAxes 2 [] = [0, 1] := rfl
  have h2 : keptAxes 2 [0, 1] = [] := by decide
  simp only [order, List.length_cons, List.length_nil, h1, h2, place, slab, ldOf, List.map_cons,
    List.map_nil, List.getD_cons_zero, List.getD_cons_succ, cells, unravel, Int.toNat_natCast,
    Nat.mul_one, samples, range_mul, List.map_flatMap, List.map_map, List.set_cons_zero,
    List.set_cons_succ, Nat.div_one, zero_add]
  refine List.flatMap_congr fun t _ => ?_
  refine List.map_congr_left fun c hc => ?_
  have hc' : c < N := List.mem_range.mp hc
  have e1 : (t * N + c) / N = t := by
    rw [Nat.add_comm, Nat.add_mul_div_right _ _ (by omega), Nat.div_eq_of_lt hc', Nat.zero_add]
  have e2 : (t * N + c) % N = c := by
    rw [Nat.add_comm, Nat.add_mul_mod_self_right, Nat.mod_eq_of_lt hc']
  simp only [Function.comp, e1, e2]

/-! ## The steps -/

theorem binOp_dims {V : Type} {op : V → V → V} {h h' : Heap V} {a b r : Arr} {junk : Int → V}
    (e : binOp op h a b junk = .ok (h', r)) : r.dims = (denseDims r.shape).1 := by
  unfold binOp at e
  cases hs : expandShapes a.shape b.shape with
  | throws x => rw [hs] at e; cases e
  | ub => rw [hs] at e; cases e
  | ok shape =>
    rw [hs] at e
    simp only [Outcome.bind_ok] at e
    split at e
    · cases e
    · cases hb : binInto op (alloc h shape junk).1 (alloc h shape junk).2 a b with
      | throws x => rw [hb] at e; cases e
      | ub => rw [hb] at e; cases e
      | ok h2 =>
        rw [hb] at e
        simp only [Outcome.bind_ok, Outcome.pure_eq, Outcome.ok.injEq, Prod.mk.injEq] at e
        obtain ⟨-, rfl⟩ := e
        simp only [alloc, Arr.shape, denseDims_shape]

theorem flagSk_dims {o : SkOps F} {lt gt : F → Bool} {N : Int} {d : F} {data mask r : Arr}
    {j : Nat → Int → Val F} {h h' : Heap (Val F)}
    (e : flagSk o lt gt N d data mask j h = .ok (h', r)) : r.dims = (denseDims r.shape).1 := by
  unfold flagSk at e
  split at e
  · cases e
  · next M _ =>
    cases hs : skFlags o lt gt N M d data j h with
    | throws x => rw [hs] at e; cases e
    | ub => rw [hs] at e; cases e
    | ok f =>
      rw [hs] at e
      exact binOp_dims e

theorem dense2 (T N : Nat) : (denseDims [(T : Int), (N : Int)]).1 =
    [⟨T, N, 0⟩, ⟨N, 1, 0⟩] := by
  simp [denseDims]

theorem dense_shape (b : Nat) (s : List Int) : (dense b s).shape = s := by
  simp [dense, Arr.shape, denseDims_shape]

theorem valid2 {T N : Nat} {i : List Int} (h : ValidIdx [(T : Int), (N : Int)] i) :
    ∃ t c : Int, i = [t, c] ∧ 0 ≤ t ∧ t < T ∧ 0 ≤ c ∧ c < N := by
  match i, h with
  | [t, c], .cons h1 (.cons h2 .nil) => exact ⟨t, c, rfl, h1.1, h1.2, h2.1, h2.2⟩

/-- A dense array that holds `X` extends the buffer of `denseInput`. -/
theorem dense_extends {α : Type} {h : Heap α} {r : Arr} {T N : Nat} {X : Nat → Int → α}
    (hd : r.dims = (denseDims [(T : Int), (N : Int)]).1) (hc : h.Contains r (onIdx X)) (i : Int)
    (x : α) (hx : Buf.ofFn ((T : Int) * N) (fun j => X (j / N).toNat (j % N)) i = some x) :
    h.mem r.blk i = some x := by
  unfold Buf.ofFn at hx
  split at hx
  case isFalse => cases hx
  case isTrue hi =>
    have hN : 0 < (N : Int) := by
      rcases Nat.eq_zero_or_pos N with h0 | h0
      · subst h0; simp at hi; omega
      · exact_mod_cast h0
    have h1 : 0 ≤ i / N := Int.ediv_nonneg hi.1 hN.le
    have h2 : i / N < T := Int.ediv_lt_of_lt_mul hN hi.2
    have h3 := Int.emod_nonneg i hN.ne'
    have h4 := Int.emod_lt_of_pos i hN
    have hv : ValidIdx r.shape [i / N, i % N] := by
      rw [Arr.shape, hd, denseDims_shape]
      exact .cons ⟨h1, h2⟩ (.cons ⟨h3, h4⟩ .nil)
    have hg := hc _ hv
    have ha : addr r.dims [i / N, i % N] = i := by
      rw [hd, dense2]
      simp only [addr]
      have := Int.ediv_mul_add_emod i N
      omega
    rw [Heap.get, ha] at hg
    rw [hg]
    exact hx

theorem numHeap_contains {h : Heap (Val F)} {a : Arr} {X : List Int → F}
    (hX : h.Contains a (fun i => .num (X i))) : (numHeap h).Contains a X := by
  intro i hi
  have := hX i hi
  simp only [Heap.get] at this ⊢
  simp only [numHeap, this]

/-- Sums of disjoint flags. -/
theorem flags_sum (e1 e2 a b : Bool) (h : ¬ (e1 = true ∧ e2 = true)) :
    (0 : UInt8) + ((if e1 then 1 else 0) + if e2 then 1 else 0) +
        ((if a then lowSkFlag else 0) + if b then highSkFlag else 0) =
      (if e1 || e2 then 1 else 0) ||| (if a then 2 else 0) ||| if b then 4 else 0 := by
  revert h
  cases e1 <;> cases e2 <;> cases a <;> cases b <;> decide

section
variable [Zero F] [Add F] [Sub F] [Div F] [IntCast F] [LT F] [DecidableLT F] [OfNat F 2]

/-- **C117.** A channel of `T` time steps and `N` fine channels, without flags before, put through the
steps of `bliss_find_hits`. The hits are those of the drift search on the samples, with

* the flags `flagsOf`: band edges and channels of unusual spectral kurtosis;
* the mean of the samples without a flag as noise floor, their standard deviation as noise power,

less those that `filter_hits` removes. Every array the steps allocate, the lazily computed mask and
the view strides are accounted for. -/
theorem C117_search (R24 : Rounding 24) (R53 : Rounding 53) (hz : Fl → Fl) (ar : Arith F Fl)
    (fltMin : F) (junk : Coord → Int) (cc : Channel Fl) (width : Int → Int) (so : SkOps F)
    (lt gt : F → Bool) (nsk : Int) (d : F) (o : StatOps F D) (ro : RateOptions) (op : Options F)
    (tiny : Fl → Bool) (zeroDrift : Bool) (j : Nat → Nat → Int → Val F) (h : Heap (Val F))
    (T N : Nat) (X : Nat → Int → F) (k : Int) (bd bm : Nat) (hr : FlagRange width nsk T N k)
    (hload : Loaded h T N X bd bm) :
    let Q := flagsOf so lt gt nsk d k T N X
    let l := clean T N Q
    (l = [] → searchFlagged R24 R53 hz ar fltMin junk cc width so lt gt nsk d o ro op tiny zeroDrift
        (dense bd [(T : Int), (N : Int)]) (dense bm [(T : Int), (N : Int)]) j h =
          .throws .runtimeError) ∧
    ∀ hits, l ≠ [] →
      driftSearch R24 R53 hz ar fltMin junk cc (denseInput T N X Q) ro (powerOf o X l)
        (floorOf o X l) op = .ok hits →
      searchFlagged R24 R53 hz ar fltMin junk cc width so lt gt nsk d o ro op tiny zeroDrift
        (dense bd [(T : Int), (N : Int)]) (dense bm [(T : Int), (N : Int)]) j h =
          .ok (filterHits tiny zeroDrift hits) := by
  intro Q l
  obtain ⟨hT, hw, hk, hkN, hov⟩ := hr
  obtain ⟨hne, hbd, hbm, hX, hM⟩ := hload
  have hn0 : (dense bm [(T : Int), (N : Int)]).shape[1]? = some (N : Int) := by
    rw [dense_shape]; rfl
  have hwfm : (dense bm [(T : Int), (N : Int)]).WF := wf_of_shape (by
    rw [dense_shape]; simp)
  have hwfd : (dense bd [(T : Int), (N : Int)]).WF := wf_of_shape (by
    rw [dense_shape]; simp)
  obtain ⟨h1, a1, a2, a3, a4⟩ := rolloff_spec (k := k) hn0 hw hk (by omega) hwfm
    (dense_distinct _ _) h hbm (M := fun _ => 0) hM (j 0 0) (j 0 1)
  have hd1 : Has h1 (dense bd [(T : Int), (N : Int)]) [(T : Int), (N : Int)]
      (fun i => .num (onIdx X i)) := by
    refine ⟨dense_shape _ _, lt_of_lt_of_le hbd a4, fun i hi => ?_⟩
    have := hX i hi
    rw [Heap.get] at this ⊢
    rw [a3 (dense bd [(T : Int), (N : Int)]).blk hbd hne]
    exact this
  have hm1 : Has h1 (dense bm [(T : Int), (N : Int)]) [(T : Int), (N : Int)] _ :=
    ⟨dense_shape _ _, lt_of_lt_of_le hbm a4, a2⟩
  obtain ⟨h2, r, b1, b2, b3⟩ := flagSk_spec so lt gt nsk d hd1 hm1 (by omega) (by omega)
    (by omega) (j 1)
  have hrd : r.dims = (denseDims [(T : Int), (N : Int)]).1 := by
    rw [flagSk_dims b1, b2.shape]
  have hr2 : Has h2 r [(T : Int), (N : Int)] (fun i => .flag (onIdx Q i)) := by
    refine b2.congr fun i hi => ?_
    obtain ⟨t, c, rfl, t1, t2, c1, c2⟩ := valid2 hi
    simp only [chan, onIdx, Q, flagsOf, List.getD_cons_zero, List.getD_cons_succ, order_column]
    congr 1
    have := flags_sum (decide (c < k)) (decide ((N : Int) - k - 1 ≤ c))
      (lt (skOf so nsk T d (onIdx X) (column T c))) (gt (skOf so nsk T d (onIdx X) (column T c)))
      (by simp only [decide_eq_true_eq]; omega)
    simp only [decide_eq_true_eq, Bool.or_eq_true] at this
    refine this.trans ?_
    have e : (N : Int) - k - 1 = N - (k + 1) := by ring
    rw [e]
  have hd2 := hd1.mono b3
  have hl : unmasked (dense bd [(T : Int), (N : Int)]).shape [] (onIdx Q) [0] = l := by
    rw [dense_shape, unmasked, order_samples]
    rfl
  have hmem : ∀ i, i ∈ l ↔ ValidIdx [(T : Int), (N : Int)] i ∧ onIdx Q i = 0 := by
    intro i
    rw [← hl]
    have := (unmasked_mem (a := dense bd [(T : Int), (N : Int)]) (axes := []) (i := [0])
      ⟨by simp, by simp⟩ (by rw [remaining_nil]; exact .cons (by decide) .nil) (onIdx Q)).2 i
    rw [this, dense_shape, remaining_nil]
    simp [orUnit]
  have hstart : ∀ {α : Type} (f : Heap (Val F) × Arr → Outcome α),
      (do
        let s ← Flag.flagRolloff width (j 0 0) (j 0 1) (.arr (dense bm [(T : Int), (N : Int)])) h
        let m ← s.2.get s.1
        let f' ← flagSk so lt gt nsk d (dense bd [(T : Int), (N : Int)]) m.2 (j 1) m.1
        f f') = f (h2, r) := by
    intro α f
    simp only [Flag.flagRolloff, MaskSrc.get, Outcome.bind_ok, Outcome.pure_eq, a1, b1]
  unfold searchFlagged
  constructor
  · intro hempty
    rw [hstart]
    have hc := (correctMask_spec hr2 (by simp) (j 2 0)).1 (fun i hi h0 => by
      have := (hmem i).mpr ⟨hi, h0⟩
      rw [hempty] at this
      cases this)
    simp only [estimateNoise, if_true, hc]
    rfl
  · intro hits hne' hs
    rw [hstart]
    obtain ⟨i0, hi0⟩ := List.exists_mem_of_ne_nil l hne'
    obtain ⟨hv0, hz0⟩ := (hmem i0).mp hi0
    obtain ⟨-, h3, st, n1, n2, n3, n4⟩ := masked_noise o (dense bd [(T : Int), (N : Int)]) r (onIdx X)
      (onIdx Q) h2 (j 2) (by rw [dense_shape, hr2.shape]) hwfd
      (fun i _ => by rw [hrd]; rfl) hd2.contains hr2.contains hd2.lt hr2.lt
      ⟨i0, by rw [dense_shape]; exact hv0, hz0⟩
    rw [hl] at n2 n3
    have hX3 : h3.Contains (dense bd [(T : Int), (N : Int)]) (fun i => .num (onIdx X i)) := by
      intro i hi
      have := hd2.contains i hi
      rw [Heap.get] at this ⊢
      rw [n4 _ hd2.lt]
      exact this
    have hQ3 : h3.Contains r (fun i => .flag (onIdx Q i)) := by
      intro i hi
      have := hr2.contains i hi
      rw [Heap.get] at this ⊢
      rw [n4 _ hr2.lt]
      exact this
    have hdd : (dense bd [(T : Int), (N : Int)]).dims = (denseDims [(T : Int), (N : Int)]).1 := rfl
    have hin : inputOf (numHeap h3) (dense bd [(T : Int), (N : Int)]) (flagHeap h3) r = .ok
        { spec := (numHeap h3).mem bd, specOffset := 0, specStride0 := N, specStride1 := 1,
          rfi := (flagHeap h3).mem r.blk, rfiOffset := 0, rfiStride0 := N, rfiStride1 := 1,
          timeSteps := T, numChannels := N } := by
      have hneg : ¬ ((T : Int) < 0 ∨ (N : Int) < 0) := by omega
      simp only [inputOf, hrd, hdd, dense2, hneg, if_false, Int.toNat_natCast]
      rfl
    have hwi : Within (denseInput T N X Q)
        { spec := (numHeap h3).mem bd, specOffset := 0, specStride0 := N, specStride1 := 1,
          rfi := (flagHeap h3).mem r.blk, rfiOffset := 0, rfiStride0 := N, rfiStride1 := 1,
          timeSteps := T, numChannels := N } := by
      refine ⟨fun i x hx => ?_, fun i x hx => ?_, ⟨rfl, rfl, rfl, rfl⟩, ⟨rfl, rfl⟩⟩
      · exact dense_extends hdd (numHeap_contains hX3) i x hx
      · exact dense_extends hrd (flagHeap_contains hQ3) i x hx
    have hs' := driftSearch_within hwi R24 R53 hz ar fltMin junk cc ro _ _ op hits hs
    simp only [n1, Outcome.bind_ok, hin, n2, n3]
    have hs'' := hs'
    unfold powerOf floorOf at hs''
    rw [hs'']
    rfl

end

end Bliss.Hit
