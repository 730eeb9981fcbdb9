import Verif.Flag.Noise

/-!
# C62 and C76: sigma clipping and normalization
-/

namespace Bliss.Flag

open Bliss.Nd Bliss.Stat

variable {F D : Type}

/-! ## C62 -/

/-- **Violation of C62.** On `float` data sigma clipping always throws: its first mask has the
element type of the data, and the masked statistics accept only `uint8_t` masks. -/
theorem C62_float_throws {S M : Type} (stats : M → Outcome S) (clip : S → Outcome M)
    (close : S → S → Bool) (zero : M) (maxIter : Int) :
    sigmaclip .float32 stats clip close zero maxIter = .throws .runtimeError := rfl

/-- **C62 (termination)**. For element types the statistics accept, clipping that returns has made at
most `max_iter` rounds. Without a round the mask is the initial one; after `n` rounds it is the mask
of the statistics `s` of round `n`, and those are the statistics of a mask that was itself one of
`n - 1` rounds.

Missing from C62: that a sample stays flagged (`C62_unflags`), and `float` data
(`C62_float_throws`). -/
theorem C62_rounds_partial {S M : Type} (stats : M → Outcome S) (clip : S → Outcome M)
    (close : S → S → Bool) (zero : M) (maxIter : Int) (m : M) (n : Nat)
    (hr : sigmaclip .uint8 stats clip close zero maxIter = .ok (m, n)) :
    (n : Int) ≤ max maxIter 0 ∧
      ∃ masks : Nat → M, masks 0 = zero ∧ masks n = m ∧
        ∀ k < n, ∃ s, stats (masks k) = .ok s ∧ clip s = .ok (masks (k + 1)) := by
  have key : ∀ (fuel : Nat) (s : S) (m0 m : M) (n : Nat), stats m0 = .ok s →
      clipLoop stats clip close fuel s m0 = .ok (m, n) → n ≤ fuel ∧
      ∃ masks : Nat → M, masks 0 = m0 ∧ masks n = m ∧
        ∀ k < n, ∃ s, stats (masks k) = .ok s ∧ clip s = .ok (masks (k + 1)) := by
    intro fuel
    induction fuel with
    | zero =>
      intro s m0 m n _ he
      simp only [clipLoop, Outcome.ok.injEq, Prod.mk.injEq] at he
      obtain ⟨rfl, rfl⟩ := he
      exact ⟨le_refl _, fun _ => m0, rfl, rfl, fun k hk => by omega⟩
    | succ fuel ih =>
      intro s m0 m n hs he
      simp only [clipLoop] at he
      cases hc : clip s with
      | throws e => rw [hc] at he; cases he
      | ub => rw [hc] at he; cases he
      | ok m1 =>
        rw [hc] at he
        simp only [Outcome.bind_ok] at he
        cases hs1 : stats m1 with
        | throws e => rw [hs1] at he; cases he
        | ub => rw [hs1] at he; cases he
        | ok s1 =>
          rw [hs1] at he
          simp only [Outcome.bind_ok] at he
          by_cases hcl : close s1 s = true
          · rw [if_pos hcl] at he
            simp only [Outcome.pure_eq, Outcome.ok.injEq, Prod.mk.injEq] at he
            obtain ⟨rfl, rfl⟩ := he
            refine ⟨by omega, fun k => if k = 0 then m0 else m1, rfl, rfl, fun k hk => ?_⟩
            obtain rfl : k = 0 := by omega
            exact ⟨s, hs, hc⟩
          · rw [if_neg hcl] at he
            cases hl : clipLoop stats clip close fuel s1 m1 with
            | throws e => rw [hl] at he; cases he
            | ub => rw [hl] at he; cases he
            | ok r =>
              rw [hl] at he
              simp only [Outcome.bind_ok, Outcome.pure_eq, Outcome.ok.injEq, Prod.mk.injEq] at he
              obtain ⟨rfl, rfl⟩ := he
              obtain ⟨h1, g, h2, h3, h4⟩ := ih s1 m1 r.1 r.2 hs1 hl
              refine ⟨by omega, fun k => if k = 0 then m0 else g (k - 1), rfl, by simp [h3],
                fun k hk => ?_⟩
              match k with
              | 0 => exact ⟨s, hs, by simp [hc, h2]⟩
              | k + 1 =>
                obtain ⟨s', e1, e2⟩ := h4 k (by omega)
                exact ⟨s', by simpa using e1, by simpa using e2⟩
  simp only [sigmaclip, typedStats, if_true] at hr
  cases hs : stats zero with
  | throws e => rw [hs] at hr; cases hr
  | ub => rw [hs] at hr; cases hr
  | ok s =>
    rw [hs] at hr
    obtain ⟨h1, h2⟩ := key _ s zero m n hs hr
    exact ⟨by omega, h2⟩

/-- Mean and standard deviation of the samples that `m` leaves, in exact arithmetic. -/
def listStats (sqrt : ℚ → ℚ) (data : List ℚ) (m : List Bool) : Outcome (ℚ × ℚ) :=
  let l := ((data.zip m).filter (fun p => !p.2)).map (·.1)
  let mean := l.sum / l.length
  .ok (mean, sqrt ((l.map (fun x => (x - mean) ^ 2)).sum / l.length))

/-- The samples outside the bounds. -/
def listClip (low high : ℚ) (data : List ℚ) (s : ℚ × ℚ) : Outcome (List Bool) :=
  .ok (data.map (fun x => decide (x < s.1 - s.2 * low ∨ s.1 + s.2 * high < x)))

/-- The convergence test. -/
def listClose (s t : ℚ × ℚ) : Bool := decide (|s.1 - t.1| < 1 / 1000000 ∧ |s.2 - t.2| < 1 / 1000000)

/-- **Violation of C62.** A round can take a flag back: with 1.25 deviations below and 0.5 above, the
sample 1 of (1, 3, 19, 22, 25) is flagged by the first round and not flagged after the second. -/
theorem C62_unflags (sqrt : ℚ → ℚ) (h1 : sqrt 100 = 10) (h2 : sqrt 64 = 8) :
    let data : List ℚ := [1, 3, 19, 22, 25]
    let clipped := sigmaclip .uint8 (listStats sqrt data) (listClip (5 / 4) (1 / 2) data) listClose
      (data.map (fun _ => false))
    clipped 1 = .ok ([true, false, false, true, true], 1) ∧
      ∃ n, clipped 2 = .ok ([false, false, true, true, true], n) := by
  have s0 : listStats sqrt [1, 3, 19, 22, 25] [false, false, false, false, false] = .ok (14, 10) := by
    have e : listStats sqrt [1, 3, 19, 22, 25] [false, false, false, false, false] =
      .ok (14, sqrt 100) := by simp [listStats]; norm_num
    rw [e, h1]
  have c0 : listClip (5 / 4) (1 / 2) [1, 3, 19, 22, 25] (14, 10) =
      .ok [true, false, false, true, true] := by simp [listClip]; norm_num
  have s1 : listStats sqrt [1, 3, 19, 22, 25] [true, false, false, true, true] = .ok (11, 8) := by
    have e : listStats sqrt [1, 3, 19, 22, 25] [true, false, false, true, true] =
      .ok (11, sqrt 64) := by simp [listStats]; norm_num
    rw [e, h2]
  have c1 : listClip (5 / 4) (1 / 2) [1, 3, 19, 22, 25] (11, 8) =
      .ok [false, false, true, true, true] := by simp [listClip]; norm_num
  have n0 : listClose (11, 8) (14, 10) = false := by simp [listClose]; norm_num
  obtain ⟨t, s2⟩ : ∃ t, listStats sqrt [1, 3, 19, 22, 25] [false, false, true, true, true] = .ok t :=
    ⟨_, rfl⟩
  refine ⟨?_, ?_⟩
  · simp only [sigmaclip, typedStats, if_true, List.map, s0, Outcome.bind_ok]
    simp only [show (1 : Int).toNat = 1 from rfl, clipLoop, c0, s1, Outcome.bind_ok, n0]
    rfl
  · simp only [sigmaclip, typedStats, if_true, List.map, s0, Outcome.bind_ok]
    simp only [show (2 : Int).toNat = 2 from rfl, clipLoop, c0, s1, c1, s2, Outcome.bind_ok, n0]
    cases listClose t (11, 8)
    · exact ⟨2, rfl⟩
    · exact ⟨2, rfl⟩

/-- The hypothesis of `C62_rounds_partial` is met by this run. -/
example (sqrt : ℚ → ℚ) (h1 : sqrt 100 = 10) (h2 : sqrt 64 = 8) :
    ∃ m n, sigmaclip .uint8 (listStats sqrt [1, 3, 19, 22, 25])
      (listClip (5 / 4) (1 / 2) [1, 3, 19, 22, 25]) listClose
      ([1, 3, 19, 22, 25].map (fun _ : ℚ => false)) 1 = .ok (m, n) :=
  ⟨_, _, (C62_unflags sqrt h1 h2).1⟩

/-- Reading the shape vector of a one-element array for a second output dimension. -/
theorem bcShape_one (a b : Int) (out : List Int) : bcShape [1] (a :: b :: out) = .ub := by
  simp only [bcShape, or_true, if_true]
  rfl

theorem binInto_one_ub {V : Type} (op : V → V → V) (h : Heap V) (out a b : Arr) (t n : Int)
    (ho : out.shape = [t, n]) (ha : a.shape = [t, n]) (hb : b.shape = [1]) :
    binInto op h out a b = .ub := by
  have h1 : ∃ x, bcStrides a.shape a.strides out.shape = .ok x := by
    rw [ha, ho]; exact ⟨_, by simp [bcStrides]; rfl⟩
  have h2 : ∃ x, bcStrides b.shape b.strides out.shape = .ok x := by
    rw [hb, ho]; exact ⟨_, by simp [bcStrides]; rfl⟩
  have h3 : bcShape a.shape out.shape = .ok [t, n] := by
    rw [ha, ho]; simp only [bcShape, true_or, if_true]; rfl
  obtain ⟨x, h1⟩ := h1
  obtain ⟨y, h2⟩ := h2
  unfold binInto
  rw [h1, h2, h3, hb, ho, bcShape_one]
  rfl

/-- **Violation of C62.** Comparing a two-dimensional spectrum with its one-element bound is
undefined, whatever the spectrum. -/
theorem C62_bound_undefined (p : F → F → Bool) (data bound : Arr) (t n : Int)
    (hd : data.shape = [t, n]) (hb : bound.shape = [1]) (junk : Int → Val F) (h : Heap (Val F)) :
    clipSide p data bound junk h = .ub := by
  unfold clipSide
  simp only []
  rw [binInto_one_ub _ _ _ _ _ t n (by rw [← hd]; exact denseDims_shape data.shape) hd hb]
  rfl

/-- On a spectrum of one dimension one side of a clip is defined, and flags exactly the samples for which
the comparison of the sample with the bound holds. -/
theorem C62_one_side (p : F → F → Bool) (data bound : Arr) (n : Int) (hd : data.shape = [n]) (hn : 0 ≤ n)
    (hb : bound.shape = [1]) {X : Int → F} {y : F} (junk : Int → Val F) (h : Heap (Val F))
    (hX : h.Contains data fun i => .num (X (i.headD 0))) (hy : h.Contains bound fun _ => .num y)
    (hld : data.blk < h.next) (hlb : bound.blk < h.next) :
    Returns h (clipSide p data bound junk h) [n] fun i => .flag (if p (X (i.headD 0)) y = true then 1 else 0) := by
  obtain ⟨p1, p2, p3, p4, p5, p6, p7⟩ := alloc_props h data.shape junk (by rw [hd]; simpa using hn)
  have hne : (alloc h data.shape junk).2.dims ≠ [] := by
    intro e
    have : (alloc h data.shape junk).2.shape = [] := by rw [Arr.shape, e]; rfl
    rw [p1, hd] at this
    exact absurd this (by simp)
  obtain ⟨h', e1, e2, e3⟩ := binInto_spec (fun x y => match x, y with
    | .num a, .num b => .flag (if p a b then 1 else 0)
    | v, _ => v) (alloc h data.shape junk).1 (alloc h data.shape junk).2 data bound hne
    (by rw [p1]; exact broadcastsTo_self _) (by rw [p1, hd, hb]; simp [BroadcastsTo])
    (frontSafe_of_length (by rw [p1])) (frontSafe_of_length (by rw [p1, hd, hb]; rfl))
    p2 (Contains.frame hX hld p7) (Contains.frame hy hlb p7) p4 p3
    (fun e => by omega) (fun e => by omega)
  obtain ⟨q1, q2, q3⟩ := fresh_of_updated (h := h) p7 p5 p6 e2 e3
  refine ⟨h', (alloc h data.shape junk).2, ?_, by rw [p1, hd], p5, q3, ?_, q2⟩
  · unfold clipSide
    dsimp only
    refine Eq.trans (congrArg (fun z => Outcome.bind z _) e1) ?_
    rfl
  · intro i hi
    have hi' := hi
    rw [p1] at hi'
    rw [q1 i hi]
    simp only [bcIdx_self hi']

/-- The hypotheses hold: the sample 1 of the spectrum 3, 1, 3 is below the bound 2, and is flagged. -/
example : ∃ h' r, clipSide (fun a b : ℚ => decide (a < b)) ⟨0, [⟨3, 1, 0⟩]⟩ ⟨1, [⟨1, 1, 0⟩]⟩ (fun _ => .flag 7)
      ⟨fun b => if b = 0 then fun i => some (.num (if i = 1 then 1 else 3)) else fun _ => some (.num 2), 2⟩ =
        .ok (h', r) ∧ h'.get r [1] = some (.flag 1) ∧ h'.get r [2] = some (.flag 0) := by
  obtain ⟨h', r, e1, e2, _, _, e5, _⟩ := C62_one_side (fun a b : ℚ => decide (a < b)) ⟨0, [⟨3, 1, 0⟩]⟩
    ⟨1, [⟨1, 1, 0⟩]⟩ 3 rfl (by norm_num) rfl (X := fun i => if i = 1 then 1 else 3) (y := 2) (fun _ => .flag 7)
    ⟨fun b => if b = 0 then fun i => some (.num (if i = 1 then 1 else 3)) else fun _ => some (.num 2), 2⟩
    (by
      intro i hi
      cases hi with
      | cons h1 h2 =>
        cases h2
        simp [Heap.get, addr])
    (by intro i hi; rfl) (by norm_num) (by norm_num)
  refine ⟨h', r, e1, ?_, ?_⟩
  · rw [e5 [1] (by rw [e2]; simp [ValidIdx])]
    norm_num
  · rw [e5 [2] (by rw [e2]; simp [ValidIdx])]
    norm_num

/-! ## C76 -/

/-- **Violation of C76.** Normalizing a coarse channel, whose data is two-dimensional, is undefined:
the maximum is a one-element array, which is not broadcast over two dimensions. -/
theorem C76_channel_undefined (o : StatOps F D) (divF : F → F → F) (data : Arr) (t n : Int)
    (X : List Int → Val F) (hd : data.shape = [t, n]) (ht : 1 ≤ t) (hn : 1 ≤ n)
    (j1 j2 : Int → Val F) (h : Heap (Val F)) (hX : h.Contains data X) (hl : data.blk < h.next) :
    normalize o divF data j1 j2 h = .ub := by
  have hs : ∀ d ∈ data.shape, 0 ≤ d := by
    rw [hd]; intro d hd; simp at hd; omega
  obtain ⟨h', r, e1, e2, _⟩ := reduceNew_spec (a := data) (axes := []) ⟨by simp, by simp⟩
    (wf_of_shape hs) _ _ _ j1 h _ (plain_visit hX hl _)
    (fun i => (order data.shape [] i).foldl (fun acc j => maxStep (liftOps o) acc (X j))
      (liftOps o).lowest) (fun _ _ => rfl)
  rw [remaining_nil] at e2
  have e1' : Stat.max (liftOps o) data [] j1 h = .ok (h', r) := e1
  unfold normalize
  rw [e1']
  simp only [Outcome.bind_ok]
  have hexp : expandShapes data.shape r.shape = .ok [t, n] := by
    rw [hd, e2]
    simp only [expandShapes, List.reverse_cons, List.reverse_nil, List.nil_append,
      List.cons_append, orUnit, if_true]
    have h1 : max n 1 = n := by omega
    have h2 : max t 1 = t := by omega
    simp [expandRev, h1, h2]
  unfold binOp
  rw [hexp, Outcome.bind_ok]
  have hcheck : binCheck data r = false := by
    have l1 : data.dims.length = 2 := by rw [← Nd.shape_length, hd]; rfl
    have l2 : r.dims.length = 1 := by rw [← Nd.shape_length, e2]; rfl
    simp [binCheck, l1, l2]
  simp only [hcheck, Bool.false_eq_true, if_false]
  rw [binInto_one_ub _ _ (alloc h' [t, n] j2).2 _ _ t n (denseDims_shape [t, n]) hd e2]
  rfl

theorem fold_max [LinearOrder F] (o : StatOps F D) (hgt : ∀ x y, o.gtV x y = decide (y < x))
    (X : List Int → F) (l : List (List Int)) (m : F) :
    ∃ v, l.foldl (fun acc j => maxStep (liftOps o) acc (.num (X j))) (.num m) = .num v ∧ m ≤ v ∧
      (∀ j ∈ l, X j ≤ v) ∧ (v = m ∨ ∃ j ∈ l, v = X j) := by
  induction l generalizing m with
  | nil => exact ⟨m, rfl, le_refl _, by simp, .inl rfl⟩
  | cons k l ih =>
    have hstep : maxStep (liftOps o) (.num m) (.num (X k)) = .num (if m < X k then X k else m) := by
      simp only [maxStep, liftOps, hgt]
      by_cases hc : m < X k <;> simp [hc]
    obtain ⟨v, h1, h2, h3, h4⟩ := ih (if m < X k then X k else m)
    refine ⟨v, ?_, ?_, ?_, ?_⟩
    · rw [List.foldl_cons, hstep, h1]
    · refine le_trans ?_ h2
      split
      · exact le_of_lt ‹_›
      · exact le_refl _
    · intro j hj
      rcases List.mem_cons.mp hj with rfl | hj
      · refine le_trans ?_ h2
        split
        · exact le_refl _
        · exact not_lt.mp ‹_›
      · exact h3 j hj
    · rcases h4 with h4 | ⟨j, hj, h4⟩
      · split at h4
        · exact .inr ⟨k, by simp, h4⟩
        · exact .inl h4
      · exact .inr ⟨j, by simp [hj], h4⟩

/-- **C76 (one-dimensional data)**. For a vector, the computation of `normalize` divides every
sample by the largest one.

Missing from C76: the two-dimensional data of a coarse channel (`C76_channel_undefined`). -/
theorem C76_vector_partial [LinearOrder F] (o : StatOps F D)
    (hgt : ∀ x y, o.gtV x y = decide (y < x)) (hlow : ∀ x, o.lowest ≤ x) (divF : F → F → F)
    (data : Arr) (n : Int) (X : List Int → F) (hd : data.shape = [n]) (hn : 1 ≤ n)
    (j1 j2 : Int → Val F) (h : Heap (Val F)) (hX : h.Contains data (fun i => .num (X i)))
    (hl : data.blk < h.next) :
    ∃ h' r k, normalize o divF data j1 j2 h = .ok (h', r) ∧ 0 ≤ k ∧ k < n ∧
      (∀ i, 0 ≤ i → i < n → X [i] ≤ X [k]) ∧ r.shape = [n] ∧
      (∀ i, 0 ≤ i → i < n → h'.get r [i] = some (.num (divF (X [i]) (X [k])))) ∧ h.Frame h' := by
  have hs : ∀ d ∈ data.shape, 0 ≤ d := by
    rw [hd]; intro d hd; simp at hd; omega
  obtain ⟨h', r, e1, e2, e3, e4, e5, e6⟩ := reduceNew_spec (a := data) (axes := [])
    ⟨by simp, by simp⟩
    (wf_of_shape hs) _ _ _ j1 h _ (plain_visit hX hl _)
    (fun i => (order data.shape [] i).foldl (fun acc j => maxStep (liftOps o) acc (.num (X j)))
      (liftOps o).lowest) (fun _ _ => rfl)
  rw [remaining_nil] at e2
  have e2' : r.shape = [1] := e2
  have e1' : Stat.max (liftOps o) data [] j1 h = .ok (h', r) := e1
  obtain ⟨v, f1, f2, f3, f4⟩ := fold_max o hgt X (order data.shape [] [0]) o.lowest
  have hE := order_all data
  have hin : ∀ i, 0 ≤ i → i < n → [i] ∈ order data.shape [] [0] := by
    intro i h0 h1
    rw [hE.2, hd, remaining_nil]
    exact ⟨.cons ⟨h0, h1⟩ .nil, rfl⟩
  have hk : ∃ k, 0 ≤ k ∧ k < n ∧ v = X [k] := by
    rcases f4 with f4 | ⟨j, hj, f4⟩
    · exact ⟨0, le_refl _, by omega,
        le_antisymm (by rw [f4]; exact hlow _) (f3 _ (hin 0 (le_refl _) (by omega)))⟩
    · have hv := ((hE.2 j).mp hj).1
      rw [hd] at hv
      match j, hv with
      | [k], .cons hk .nil => exact ⟨k, hk.1, hk.2, f4⟩
  obtain ⟨k, k0, k1, rfl⟩ := hk
  have hexp : expandShapes data.shape r.shape = .ok [n] := by
    rw [hd, e2']
    have h1 : Max.max n 1 = n := by omega
    simp [expandShapes, expandRev, h1]
  obtain ⟨h'', q, g1, g2, g3, g4, g5, g6⟩ := bin_returns (Val.map2 divF) h' data r j2
    (fun i => .num (X i)) _ [n] hexp (by simp) (by simp; omega)
    (by rw [hd]; exact broadcastsTo_self _)
    (by
      have := (expandShapes_broadcasts hexp (by rw [hd]; simp; omega) (by rw [e2']; simp)).2
      exact this) (by rw [hd]) (by rw [e2']; rfl)
    (Contains.frame hX hl e6) e5 (by omega) (by omega)
  refine ⟨h'', q, k, ?_, k0, k1, fun i h0 h1 => f3 _ (hin i h0 h1), g2, fun i h0 h1 => ?_, ?_⟩
  · unfold normalize
    rw [e1']
    exact g1
  · have := g5 [i] (by rw [g2]; exact .cons ⟨h0, h1⟩ .nil)
    have hb1 : bcIdx data.shape [i] = [i] := by
      rw [hd]; exact bcIdx_self (.cons ⟨h0, h1⟩ .nil)
    have hb2 : bcIdx r.shape [i] = [0] := by
      rw [e2']; rfl
    simp only [hb1, hb2] at this
    rw [this]
    have hfold : (order data.shape [] [0]).foldl
      (fun acc j => maxStep (liftOps o) acc (.num (X j))) (liftOps o).lowest = .num (X [k]) := f1
    rw [hfold]
    rfl
  · exact fun b hb => by rw [g6 b (by omega), e6 b hb]

-- concrete cases: (9, 1, 1) has the maximum 9; the 2×2 grid is undefined
example : (fun r => (resultAt r [0], resultAt r [1]))
    (normalize (F := ℚ) (ratOps id) (· / ·) (dense 0 [3]) (fun _ => .num 0) (fun _ => .num 0) grid) =
    (some (.num 1), some (.num (1 / 9))) := by decide +kernel

example : isUb (normalize (F := ℚ) (ratOps id) (· / ·) (dense 0 [2, 2]) (fun _ => .num 0)
    (fun _ => .num 0) grid) = true := by decide +kernel

end Bliss.Flag
