import Verif.Gpu.Clip

/-!
# C145: what normalization and sigma clipping compute on a CUDA device
-/

namespace Bliss.Gpu

open Bliss.Nd Bliss.Flag Bliss.Stat

/-! ## Numbers and flags -/

section Mixed

variable {F : Type} {h : Heap (Val F)} {a : Arr}

theorem nums_contains {X : List Int → F} (hX : h.Contains a fun j => .num (X j)) :
    (nums h).Contains a X := by
  intro idx hv
  have := hX idx hv
  unfold Heap.get at this ⊢
  simp only [nums, this]

theorem bytes_contains {Y : List Int → UInt8} (hY : h.Contains a fun j => .flag (Y j)) :
    (bytes h).Contains a Y := by
  intro idx hv
  have := hY idx hv
  unfold Heap.get at this ⊢
  simp only [bytes, this]

theorem withNums_frame {h' : Heap F} (hf : (nums h).Frame h') : h.Frame (withNums h h') := by
  intro b hb
  funext i
  have h1 := congrFun (hf b hb) i
  simp only [withNums, h1, nums]
  cases hm : h.mem b i with
  | none => rfl
  | some v => cases v <;> rfl

theorem withNums_contains {h' : Heap F} {R : List Int → F} (hR : h'.Contains a R) :
    (withNums h h').Contains a fun j => .num (R j) := by
  intro idx hv
  have := hR idx hv
  unfold Heap.get at this ⊢
  simp only [withNums, this]

theorem zeros_contains (h : Heap (Val F)) (shape : List Int) (v : Val F) (hs : ∀ s ∈ shape, 0 ≤ s) :
    (alloc h shape fun _ => v).1.Contains (alloc h shape fun _ => v).2 fun _ => v := by
  obtain ⟨-, -, -, p4, -⟩ := alloc_props h shape (fun _ => v) hs
  intro idx hv
  have := p4 idx hv
  unfold Heap.get at *
  obtain ⟨w, hw⟩ := Option.ne_none_iff_exists'.mp this
  rw [hw]
  simp only [alloc, if_true, Buf.ofFn] at hw
  split at hw
  · exact hw.symm
  · cases hw

theorem scalar_always (B : Move.Build) (hB : B.cuda = true) (dev : Bliss.Device.Dev)
    (hdev : dev.kind = .cuda ∨ dev.kind = .cudaManaged) {A : List Int → Val F} {x : F}
    (hs : a.shape = [1]) (hA : h.Contains a A) (hx : A [0] = .num x) (hl : a.blk < h.next) :
    Always (devScalarize B dev h a) fun y => y = x := by
  have hv := hA [0] (by rw [hs]; exact .cons (by decide) .nil)
  have hlen : a.dims.length = 1 := by rw [← Nd.shape_length, hs]; rfl
  have h0 := Move.addr_origin a.dims 1 hlen.symm
  have hmem : h.mem a.blk a.base = some (.num x) := by
    rw [Move.base_sum, ← h0, ← hx]
    exact hv
  have key : ∀ junk, Move.scalarize B h a dev junk = .ok (.num x) := fun junk =>
    Move.C103_device_scalar B hB h a (wf_of_shape (by rw [hs]; simp)) hl dev hdev
      (by unfold Arr.numel; rw [hs]; rfl) _ hmem junk
  refine ⟨⟨_, fun _ => .num x, rfl⟩, ?_⟩
  rintro o ⟨junk, rfl⟩
  rw [key]
  exact ⟨x, rfl, rfl⟩

end Mixed

/-! ## Statistics -/

theorem lists_enumerates {shape : List Int} {cells : List (List Int)} (hc : Lists shape cells) :
    Enumerates shape [] [0] cells :=
  ⟨hc.1, fun j => by rw [hc.2, remaining_nil]; simp [orUnit]⟩

/-- An array of shape `{1}` with the element `x`. -/
structure One {F : Type} (h : Heap (Val F)) (a : Arr) (x : F) : Prop where
  shape : a.shape = [1]
  elems : h.Contains a fun _ => .num x
  live : a.blk < h.next

theorem One.frame {F : Type} {h h' : Heap (Val F)} {a : Arr} {x : F} (ho : One h a x)
    (hf : h.Frame h') (hn : h.next ≤ h'.next) : One h' a x :=
  ⟨ho.shape, Contains.frame ho.elems ho.live hf, by have := ho.live; omega⟩

/-- Data and mask of one round. -/
structure Channel {F : Type} (h : Heap (Val F)) (data : Arr) (X : List Int → F) : Prop extends
    OnDevice h data where
  elems : h.Contains data fun j => .num (X j)

theorem Channel.frame {F : Type} {h h' : Heap (Val F)} {data : Arr} {X : List Int → F}
    (hc : Channel h data X) (hf : h.Frame h') (hn : h.next ≤ h'.next) : Channel h' data X :=
  ⟨⟨hc.pos, hc.rank, hc.size, hc.start, hc.narrow, by have := hc.live; omega⟩,
    Contains.frame hc.elems hc.live hf⟩

theorem stats_always (sqrt : ℚ → ℚ) {h : Heap (Val ℚ)} {data mask : Arr} {X : List Int → ℚ}
    {Y : List Int → UInt8} {cells u : List (List Int)} (hd : Channel h data X)
    (hc : Lists data.shape cells) (hms : mask.shape = data.shape) (hm0 : mask.base = 0)
    (hY : h.Contains mask fun j => .flag (Y j)) (hu : u = cells.filter fun j => Y j = 0)
    (hne : u ≠ []) :
    Always (devStats (gpuRat sqrt) h data mask) fun x =>
      One x.1 x.2.1 (meanOf X u) ∧ One x.1 x.2.2 (devOf sqrt X u) ∧ h.Frame x.1 ∧
        h.next ≤ x.1.next := by
  have hin : DeviceInput (nums h) data [] :=
    ⟨⟨by simp, by simp⟩, fun s hs => by have := hd.pos s hs; omega, hd.rank.2, hd.live, hd.start⟩
  have hmask : DeviceMask (bytes h) data mask Y := ⟨hms, hm0, bytes_contains hY⟩
  have key := fun j1 j2 sh => C85_masked_mean_stddev_partial sqrt (nums h) (bytes h) data mask []
    j1 j2 sh X Y hin (nums_contains hd.elems) hmask
  refine ⟨?_, ?_⟩
  · obtain ⟨R, S, ⟨⟨o, ho⟩, -⟩, -⟩ := key (fun _ => 0) (fun _ => 0) (fun _ _ => (0, 0, 0))
    exact ⟨_, _, _, _, o, ho, rfl⟩
  · rintro o ⟨j1, j2, sh, r', hr, rfl⟩
    obtain ⟨R, S, ⟨-, -, hall⟩, hval⟩ := key j1 j2 sh
    obtain ⟨h', r, s, rfl, q1, q2, q3, q4, q5, q6, q7, q8⟩ := hall r' hr
    rw [remaining_nil] at q1 q2 hval
    obtain ⟨v1, v2⟩ := hval [0] (.cons (by decide) .nil) cells (lists_enumerates hc) u hu hne
    have only : ∀ idx, ValidIdx [1] idx → idx = [0] := by
      intro idx hv
      match idx, hv with
      | [i], .cons hi .nil => have : i = 0 := by omega
                              rw [this]
    refine ⟨_, rfl, ⟨q1, ?_, ?_⟩, ⟨q2, ?_, ?_⟩, withNums_frame q8, ?_⟩
    · refine contains_congr (withNums_contains q6) fun idx hv => ?_
      rw [only idx (by have hv' := hv; rw [q1] at hv'; exact hv')]
      exact congrArg _ v1
    · simp only [withNums]; simp only [nums] at q3 q5; omega
    · refine contains_congr (withNums_contains q7) fun idx hv => ?_
      rw [only idx (by have hv' := hv; rw [q2] at hv'; exact hv')]
      exact congrArg _ v2
    · simp only [withNums]; simp only [nums] at q4 q5; omega
    · simp only [withNums]; simp only [nums] at q5; omega

/-! ## One-element arithmetic -/

section OneArith

variable {F : Type} {h : Heap (Val F)} {a b : Arr} {x y : F}

theorem one_scalar (f : F → F) (ha : One h a x) :
    Always (devScalar (Val.map1 f) h a) fun r =>
      One r.1 r.2 (f x) ∧ h.Frame r.1 ∧ h.next ≤ r.1.next := by
  refine (devScalar_made (A := fun _ => .num x) (by rw [ha.shape]; simp) (by rw [ha.shape]; simp)
    (by rw [ha.shape]; simp) ha.elems ha.live (narrow_one ha.shape) (.num x)).mono fun r hr => ?_
  exact ⟨⟨hr.shape.trans ha.shape, hr.elems, hr.live⟩, hr.frame, hr.next⟩

theorem one_binary (f : F → F → F) (ha : One h a x) (hb : One h b y) :
    Always (devBinary (Val.map2 f) h a b) fun r =>
      One r.1 r.2 (f x y) ∧ h.Frame r.1 ∧ h.next ≤ r.1.next := by
  refine (devBinary_made (A := fun _ => .num x) (B := fun _ => .num y)
    (by rw [ha.shape, hb.shape]; exact expandShapes_self)
    (by rw [ha.shape]; simp) (by rw [hb.shape]; simp) (by rw [ha.shape]; simp)
    (by rw [ha.shape]; simp) ha.elems hb.elems ha.live hb.live (narrow_one ha.shape)
    (narrow_one hb.shape) (.num x)).mono fun r hr => ?_
  exact ⟨⟨hr.shape.trans ha.shape, hr.elems, hr.live⟩, hr.frame, hr.next⟩

theorem Channel.expand {X : List Int → F} (hd : Channel h a X) (hb : One h b y) :
    expandShapes a.shape b.shape = .ok a.shape := by
  rw [hb.shape]
  refine expandShapes_one hd.pos fun e => ?_
  have := hd.rank.1
  rw [e] at this
  simp at this

theorem channel_compare (p : F → F → Bool) {X : List Int → F} (hd : Channel h a X) (hb : One h b y) :
    Always (devCompare (cmp2 p) h a b) fun r =>
      Made h r.1 r.2 a.shape fun j => .flag (if p (X j) y then 1 else 0)  := by
  refine (devCompare_made (A := fun j => .num (X j)) (B := fun _ => .num y) (hd.expand hb)
    hd.pos (by rw [hb.shape]; simp) hd.rank.2 hd.size hd.elems hb.elems hd.live hb.live hd.narrow
    (narrow_one hb.shape) (.num y)).mono ?_
  intro _ hr
  exact hr

theorem channel_binary (f : F → F → F) {X : List Int → F} (hd : Channel h a X) (hb : One h b y) :
    Always (devBinary (Val.map2 f) h a b) fun r =>
      Made h r.1 r.2 a.shape fun j => .num (f (X j) y)  := by
  refine (devBinary_made (A := fun j => .num (X j)) (B := fun _ => .num y) (hd.expand hb)
    hd.pos (by rw [hb.shape]; simp) hd.rank.2 hd.size hd.elems hb.elems hd.live hb.live hd.narrow
    (narrow_one hb.shape) (.num y)).mono ?_
  intro _ hr
  exact hr

end OneArith

/-! ## One round -/

theorem round_always (sqrt : ℚ → ℚ) (low high : ℚ) {h : Heap (Val ℚ)} {data mean stddev : Arr}
    {X : List Int → ℚ} {m s : ℚ} (hd : Channel h data X) (hm : One h mean m) (hs : One h stddev s)
    (hle : m - s * low ≤ m + s * high) :
    Always (roundMask (gpuRat sqrt) low high h data mean stddev) fun r =>
      Made h r.1 r.2 data.shape fun j =>
        .flag (if decide (X j < m - s * low) || decide (m + s * high < X j) then 1 else 0) := by
  unfold roundMask
  refine (one_scalar _ hs).bind ?_
  rintro ⟨h1, sl⟩ ⟨e1, f1, n1⟩
  refine (one_binary _ (hm.frame f1 n1) e1).bind ?_
  rintro ⟨h2, lo⟩ ⟨e2, f2, n2⟩
  dsimp only at *
  have F2 := Frame.trans f1 n1 f2
  refine (channel_compare _ (hd.frame F2 (by omega)) e2).bind ?_
  rintro ⟨h3, below⟩ e3
  dsimp only at *
  have F3 := Frame.trans F2 (by omega) e3.frame
  have n3 := e3.next
  refine (one_scalar _ (hs.frame F3 (by omega))).bind ?_
  rintro ⟨h4, sh⟩ ⟨e4, f4, n4⟩
  dsimp only at *
  have F4 := Frame.trans F3 (by omega) f4
  refine (one_binary _ (hm.frame F4 (by omega)) e4).bind ?_
  rintro ⟨h5, hi⟩ ⟨e5, f5, n5⟩
  dsimp only at *
  have F5 := Frame.trans F4 (by omega) f5
  refine (channel_compare _ (hd.frame F5 (by omega)) e5).bind ?_
  rintro ⟨h6, above⟩ e6
  dsimp only at *
  have F6 := Frame.trans F5 (by omega) e6.frame
  have n6 := e6.next
  have G4 := Frame.trans f4 (by omega) f5
  have G5 := Frame.trans G4 (by omega) e6.frame
  have l3 := e3.live
  refine (devBinary_made (by rw [e3.shape, e6.shape]; exact expandShapes_self)
    (by rw [e3.shape]; exact hd.pos) (by rw [e6.shape]; exact hd.pos)
    (by rw [e3.shape]; exact hd.rank.2) (by rw [e3.shape]; exact hd.size)
    (Contains.frame e3.elems e3.live G5) e6.elems (by omega) e6.live e3.narrow e6.narrow
    (.flag 0)).mono ?_
  rintro ⟨h7, r⟩ e7
  dsimp only at *
  have n7 := e7.next
  have hsh : r.shape = data.shape := e7.shape.trans e3.shape
  refine ⟨⟨hsh, contains_congr e7.elems fun idx hv => ?_, Frame.trans F6 (by omega) e7.frame,
    by omega, e7.live⟩, e7.start, e7.narrow⟩
  have hb : bcIdx above.shape idx = idx := by
    rw [e6.shape, ← hsh]; exact bcIdx_self hv
  rw [hb]
  simp only [gpuRat, Val.add]
  by_cases c1 : X idx < m - s * low
  · have c2 : ¬ m + s * high < X idx := by
      intro c2; exact absurd (lt_trans c2 c1) (not_lt.mpr hle)
    simp [c1, c2]
  · by_cases c2 : m + s * high < X idx <;> simp [c1, c2]

/-! ## The loop -/

section Loop

variable {sqrt : ℚ → ℚ} {low high eps : ℚ} {X : List Int → ℚ} {cells : List (List Int)}

theorem kept_filter {Y : List Int → UInt8} {k : Nat}
    (hY : ∀ j, Y j = if flagged sqrt low high X cells k j then 1 else 0) :
    kept sqrt low high X cells k = cells.filter fun j => Y j = 0 := by
  unfold kept
  congr 1
  funext j
  rw [hY j]
  cases flagged sqrt low high X cells k j <;> rfl

theorem flagged_succ (k : Nat) (j : List Int) : flagged sqrt low high X cells (k + 1) j =
    (decide (X j < meanOf X (kept sqrt low high X cells k) -
        devOf sqrt X (kept sqrt low high X cells k) * low) ||
      decide (meanOf X (kept sqrt low high X cells k) +
        devOf sqrt X (kept sqrt low high X cells k) * high < X j)) := rfl

theorem loop_always (hroot : ∀ v, 0 ≤ sqrt v) (hlow : 0 ≤ low) (hhigh : 0 ≤ high)
    (B : Move.Build) (hB : B.cuda = true) (dev : Bliss.Device.Dev)
    (hdev : dev.kind = .cuda ∨ dev.kind = .cudaManaged) {data : Arr}
    (hc : Lists data.shape cells) (hsome : ∀ k, kept sqrt low high X cells k ≠ []) (fuel : Nat) :
    ∀ (k : Nat) (h : Heap (Val ℚ)) (mask mean stddev : Arr), Channel h data X →
      mask.shape = data.shape → mask.base = 0 → Narrow mask → mask.blk < h.next →
      h.Contains mask (fun j => .flag (if flagged sqrt low high X cells k j then 1 else 0)) →
      One h mean (meanOf X (kept sqrt low high X cells k)) →
      One h stddev (devOf sqrt X (kept sqrt low high X cells k)) →
      Always (devClipLoop (gpuRat sqrt) (fun x => decide (|x| < eps)) B dev low high data fuel h mask
        mean stddev) fun r => ∃ n, k ≤ n ∧ n ≤ k + fuel ∧
          (∀ i, k ≤ i → i + 1 < n → ¬ Settled sqrt low high eps X cells i) ∧
          (n = k + fuel ∨ k < n ∧ Settled sqrt low high eps X cells (n - 1)) ∧
          Made h r.1 r.2 data.shape fun j =>
            .flag (if flagged sqrt low high X cells n j then 1 else 0) := by
  induction fuel with
  | zero =>
    intro k h mask mean stddev hd s1 s2 s3 s4 s5 _ _
    exact Always.ret ⟨k, le_refl _, le_refl _, fun i _ _ => by omega, .inl rfl,
      ⟨⟨s1, s5, fun _ _ => rfl, le_refl _, s4⟩, s2, s3⟩⟩
  | succ fuel ih =>
    intro k h mask mean stddev hd s1 s2 s3 s4 s5 hm hs
    unfold devClipLoop
    have hle : meanOf X (kept sqrt low high X cells k) - devOf sqrt X (kept sqrt low high X cells k) * low ≤
        meanOf X (kept sqrt low high X cells k) + devOf sqrt X (kept sqrt low high X cells k) * high := by
      have h1 := mul_nonneg (hroot (popVar X (kept sqrt low high X cells k))) hlow
      have h2 := mul_nonneg (hroot (popVar X (kept sqrt low high X cells k))) hhigh
      unfold devOf
      linarith
    refine (round_always sqrt low high hd hm hs hle).bind ?_
    rintro ⟨h1, mask'⟩ e1
    dsimp only at *
    have n1 := e1.next
    have hd1 := hd.frame e1.frame n1
    have hel : h1.Contains mask' fun j =>
        .flag (if flagged sqrt low high X cells (k + 1) j then 1 else 0) := e1.elems
    refine (stats_always sqrt hd1 hc e1.shape e1.start hel
      (kept_filter (k := k + 1) fun _ => rfl) (hsome (k + 1))).bind ?_
    rintro ⟨h2, newMean, newStd⟩ ⟨g1, g2, g3, g4⟩
    dsimp only at *
    have F2 := Frame.trans e1.frame n1 g3
    refine (one_binary _ g1 (hm.frame F2 (by omega))).bind ?_
    rintro ⟨h3, dm⟩ ⟨k1, k2, k3⟩
    dsimp only at *
    have F3 := Frame.trans F2 (by omega) k2
    have M3 : Made h h3 mask' data.shape fun j =>
        .flag (if flagged sqrt low high X cells (k + 1) j then 1 else 0) :=
      ⟨⟨e1.shape, Contains.frame hel e1.live (Frame.trans g3 g4 k2), F3, by omega,
        by have := e1.live; omega⟩, e1.start, e1.narrow⟩
    -- the next round
    have next : ∀ h4 : Heap (Val ℚ), h3.Frame h4 → h3.next ≤ h4.next →
        ¬ Settled sqrt low high eps X cells k →
        Always (devClipLoop (gpuRat sqrt) (fun x => decide (|x| < eps)) B dev low high data fuel h4
          mask' newMean newStd) fun r => ∃ n, k ≤ n ∧ n ≤ k + (fuel + 1) ∧
          (∀ i, k ≤ i → i + 1 < n → ¬ Settled sqrt low high eps X cells i) ∧
          (n = k + (fuel + 1) ∨ k < n ∧ Settled sqrt low high eps X cells (n - 1)) ∧
          Made h r.1 r.2 data.shape fun j =>
            .flag (if flagged sqrt low high X cells n j then 1 else 0) := by
      intro h4 f4 n4 hns
      have F4 := Frame.trans F3 (by omega) f4
      have G4 := Frame.trans k2 k3 f4
      refine (ih (k + 1) h4 mask' newMean newStd (hd.frame F4 (by omega)) e1.shape e1.start
        e1.narrow (by have := M3.live; omega) (Contains.frame M3.elems M3.live f4)
        (g1.frame G4 (by omega)) (g2.frame G4 (by omega))).mono ?_
      rintro r ⟨n, a1, a2, a3, a4, a5⟩
      have := a5.next
      refine ⟨n, by omega, by omega, fun i hi hin => ?_, ?_,
        ⟨⟨a5.shape, a5.elems, Frame.trans F4 (by omega) a5.frame, by omega, a5.live⟩, a5.start,
          a5.narrow⟩⟩
      · by_cases hik : i = k
        · rw [hik]; exact hns
        · exact a3 i (by omega) hin
      · rcases a4 with a4 | a4
        · exact .inl (by omega)
        · exact .inr ⟨by omega, a4.2⟩
    refine (scalar_always B hB dev hdev k1.shape k1.elems rfl k1.live).bind ?_
    rintro x rfl
    by_cases c1 : |(gpuRat sqrt).sub (meanOf X (kept sqrt low high X cells (k + 1)))
        (meanOf X (kept sqrt low high X cells k))| < eps
    · rw [if_pos (decide_eq_true c1)]
      refine (one_binary _ (g2.frame k2 k3) (hs.frame F3 (by omega))).bind ?_
      rintro ⟨h4, ds⟩ ⟨l1, l2, l3⟩
      dsimp only at *
      refine (scalar_always B hB dev hdev l1.shape l1.elems rfl l1.live).bind ?_
      rintro y rfl
      by_cases c2 : |(gpuRat sqrt).sub (devOf sqrt X (kept sqrt low high X cells (k + 1)))
          (devOf sqrt X (kept sqrt low high X cells k))| < eps
      · rw [if_pos (decide_eq_true c2)]
        refine Always.ret ⟨k + 1, by omega, by omega, fun i _ _ => by omega,
          .inr ⟨by omega, c1, c2⟩, ?_⟩
        exact ⟨⟨M3.shape, Contains.frame M3.elems M3.live l2, Frame.trans F3 (by omega) l2,
          by simp only; omega,
          by have := M3.live; simp only; omega⟩, M3.start, M3.narrow⟩
      · rw [if_neg (fun e => c2 (of_decide_eq_true e))]
        exact next h4 l2 l3 fun hset => c2 hset.2
    · rw [if_neg (fun e => c1 (of_decide_eq_true e))]
      exact next h3 (fun _ _ => rfl) (le_refl _) fun hset => c1 hset.1

end Loop

/-! ## C145 -/

section Claims

variable {sqrt : ℚ → ℚ} {low high eps : ℚ} {X : List Int → ℚ} {cells : List (List Int)}

/-- The flags of sigma clipping: after the right number of rounds, 32 for the samples outside. -/
theorem clip_always (hroot : ∀ v, 0 ≤ sqrt v) (hlow : 0 ≤ low) (hhigh : 0 ≤ high)
    (B : Move.Build) (hB : B.cuda = true) (dev : Bliss.Device.Dev)
    (hdev : dev.kind = .cuda ∨ dev.kind = .cudaManaged) {data : Arr} {h : Heap (Val ℚ)}
    (hd : Channel h data X) (hc : Lists data.shape cells)
    (hsome : ∀ k, kept sqrt low high X cells k ≠ []) (maxIter : Int) (hiter : 1 ≤ maxIter) :
    Always (devSigmaclip (gpuRat sqrt) (fun x => decide (|x| < eps)) B dev low high maxIter h data)
      fun r => ∃ n, Rounds sqrt low high eps X cells maxIter n ∧ Made h r.1 r.2 data.shape fun j =>
        .flag (if flagged sqrt low high X cells n j then 32 else 0) := by
  have h0 : ∀ s ∈ data.shape, 0 ≤ s := fun s hs => by have := hd.pos s hs; omega
  obtain ⟨p1, -, -, -, p5, p6, p7⟩ := alloc_props h data.shape (fun _ => Val.flag (F := ℚ) 0) h0
  have hz := zeros_contains h data.shape (Val.flag (F := ℚ) 0) h0
  have hb := alloc_base h data.shape (fun _ => Val.flag (F := ℚ) 0)
  have hnw := dense_narrow (h := h) (junk := fun _ => Val.flag (F := ℚ) 0) (shape := data.shape)
    (by have := hd.size; omega)
  unfold devSigmaclip
  generalize alloc h data.shape (fun _ => Val.flag (F := ℚ) 0) = z at *
  obtain ⟨z1, z2⟩ := z
  dsimp only at *
  have hzf : h.Frame z1 := p7
  have hd1 := hd.frame hzf (by omega)
  have hz0 : z1.Contains z2 fun j =>
    .flag (if flagged sqrt low high X cells 0 j then 1 else 0) := hz
  refine (stats_always sqrt hd1 hc p1 hb hz0 (kept_filter (k := 0) fun _ => rfl) (hsome 0)).bind ?_
  rintro ⟨h2, mean, stddev⟩ ⟨g1, g2, g3, g4⟩
  dsimp only at *
  have F2 := Frame.trans hzf (by omega) g3
  refine (loop_always hroot hlow hhigh B hB dev hdev hc hsome maxIter.toNat 0 h2 z2 mean stddev
    (hd1.frame g3 g4) p1 hb hnw (by omega) (Contains.frame hz0 (by omega) g3) g1 g2).bind ?_
  rintro ⟨h3, m⟩ ⟨n, a1, a2, a3, a4, a5⟩
  dsimp only at *
  have n5 := a5.next
  refine (devScalar_made (by rw [a5.shape]; exact hd.pos) (by rw [a5.shape]; exact hd.rank.2)
    (by rw [a5.shape]; exact hd.size) a5.elems a5.live a5.narrow (.flag 0)).mono ?_
  rintro ⟨h4, r⟩ e
  dsimp only at *
  have n6 := e.next
  refine ⟨n, ⟨?_, by omega, fun k hk => a3 k (by omega) hk, ?_⟩,
    ⟨⟨e.shape.trans a5.shape, contains_congr e.elems fun j _ => ?_,
      Frame.trans (Frame.trans F2 (by omega) a5.frame) (by omega) e.frame, by omega, e.live⟩,
      e.start, e.narrow⟩⟩
  · rcases a4 with a4 | a4 <;> omega
  · rcases a4 with a4 | a4
    · exact .inl (by omega)
    · exact .inr a4.2
  · cases flagged sqrt low high X cells n j <;> rfl

/-- **C145 (as written).** The arithmetic and the comparisons that `normalize` and `flag_sigmaclip`
make between the two-dimensional data of a coarse channel and an array of shape `{1}` are undefined on
the device too: the host side of the launch reads past the end of a shape. -/
theorem C145_standard_undefined {V : Type} (op : V → V → V) (h : Heap V) (a b : Arr) (t n : Int)
    (ht : 1 ≤ t) (hn : 1 ≤ n) (ha : a.shape = [t, n]) (hb : b.shape = [1]) (junk : Int → V)
    (o : Outcome (Heap V × Arr)) (ho : GpuBinary op h a b junk o) : o = .ub := by
  have hexp : expandShapes a.shape b.shape = .ok [t, n] := by
    rw [ha, hb]; exact expandShapes_one (by simp; omega) (by simp)
  obtain ⟨p1, -⟩ := alloc_props h [t, n] junk (by simp; omega)
  have hpa : operandFor a (alloc h [t, n] junk).2 = .ok (operandOf [t, n] a) := by
    rw [operandFor_eq (by rw [p1, ha]; exact broadcastsTo_self _)
      (by rw [p1, ha]; exact ⟨_, bcShape_ok (broadcastsTo_self _) (frontSafe_of_length rfl)⟩), p1]
  have hpb : operandFor b (alloc h [t, n] junk).2 = .ub := by
    unfold operandFor
    rw [p1, hb, bcShape_one]
    rfl
  unfold GpuBinary gpuBinaryHost at ho
  rw [hexp, Outcome.bind_ok] at ho
  simp only [binCheck_false hexp, Bool.false_eq_true, if_false, hpa, hpb, Outcome.bind_ok] at ho
  exact ho

theorem bcShape_no_throw (e : Err) : ∀ s out : List Int, bcShape s out ≠ .throws e := by
  intro s out
  induction out generalizing s with
  | nil => simp [bcShape]
  | cons o os ih =>
    cases s with
    | nil => simp [bcShape]
    | cons x xs =>
      simp only [bcShape]
      split
      · cases h : bcShape xs os with
        | ok r => simp
        | ub => intro he; cases he
        | throws e' =>
          intro he
          rw [show e' = e by cases he; rfl] at h
          exact ih _ h
      · cases h : bcShape (x :: xs) os with
        | ok r => simp
        | ub => intro he; cases he
        | throws e' =>
          intro he
          rw [show e' = e by cases he; rfl] at h
          exact ih _ h

/-- **C145.** Where the host side of a launch is defined, leaving out the broadcast shapes changes
nothing. -/
theorem C145_shapes_unused {V : Type} (h : Heap V) (a b : Arr) (junk : Int → V)
    (hdef : gpuBinaryHost h a b junk ≠ .ub) :
    looseHost h a b junk = gpuBinaryHost h a b junk := by
  unfold gpuBinaryHost at hdef ⊢
  unfold looseHost looseInto
  cases hexp : expandShapes a.shape b.shape with
  | throws e => rfl
  | ub => rfl
  | ok shape =>
    rw [hexp] at hdef
    simp only [Outcome.bind_ok] at hdef ⊢
    by_cases hc : binCheck a b = true
    · rw [if_pos hc, if_pos hc]
    · rw [if_neg hc] at hdef
      rw [if_neg hc, if_neg hc]
      unfold operandFor at hdef ⊢
      cases h1 : bcShape a.shape (alloc h shape junk).2.shape with
      | throws e => exact absurd h1 (bcShape_no_throw _ _ _)
      | ub => rw [h1] at hdef; exact absurd rfl hdef
      | ok x =>
        rw [h1] at hdef
        simp only [Outcome.bind_ok] at hdef ⊢
        cases h2 : bcStrides a.shape a.strides (alloc h shape junk).2.shape with
        | throws e => rfl
        | ub => rfl
        | ok st =>
          rw [h2] at hdef
          simp only [Outcome.bind_ok, Outcome.pure_eq] at hdef ⊢
          cases h3 : bcShape b.shape (alloc h shape junk).2.shape with
          | throws e => exact absurd h3 (bcShape_no_throw _ _ _)
          | ub => rw [h3] at hdef; exact absurd rfl hdef
          | ok y =>
            simp only [Outcome.bind_ok]
            cases h4 : bcStrides b.shape b.strides (alloc h shape junk).2.shape with
            | throws e => rfl
            | ub => rfl
            | ok st => rfl

/-- **C145 (normalization).** If reading past the end of a shape only delivers some number, `normalize`
on the device divides every sample by the largest one, under every schedule.

Missing from C145: without that assumption the call is undefined (`C145_standard_undefined`); NaN. -/
theorem C145_normalize_partial {F : Type} [LinearOrder F] (o : GpuOps F)
    (hgt : ∀ x y, o.gt x y = decide (y < x)) (hleast : ∀ x, o.lowest ≤ x) {h : Heap (Val F)}
    {data : Arr} {X : List Int → F} (hd : OnDevice h data)
    (hX : h.Contains data fun j => .num (X j)) :
    Always (devNormalize o h data) fun r => ∃ k, ValidIdx data.shape k ∧
      (∀ j, ValidIdx data.shape j → X j ≤ X k) ∧ r.2.shape = data.shape ∧
      r.1.Contains r.2 (fun j => .num (o.div (X j) (X k))) ∧ h.Frame r.1 := by
  have hd : Channel h data X := ⟨hd, hX⟩
  unfold devNormalize
  have hin : DeviceInput (nums h) data [] :=
    ⟨⟨by simp, by simp⟩, fun s hs => by have := hd.pos s hs; omega, hd.rank.2, hd.live, hd.start⟩
  have key := fun junk sh => C85_max_partial o hgt hleast (nums h) data [] junk sh X (bytes h) hin
    (nums_contains hd.elems)
  have hmax : Always (devMax o h data) fun x => ∃ k, ValidIdx data.shape k ∧
      (∀ j, ValidIdx data.shape j → X j ≤ X k) ∧ One x.1 x.2 (X k) ∧ h.Frame x.1 ∧
        h.next ≤ x.1.next := by
    refine ⟨?_, ?_⟩
    · obtain ⟨R, ⟨⟨o, ho⟩, -⟩, -⟩ := key (fun _ => o.lowest) (fun _ _ => o.lowest)
      exact ⟨_, _, _, o, ho, rfl⟩
    · rintro o ⟨junk, sh, r', hr, rfl⟩
      obtain ⟨R, ⟨-, -, hall⟩, hval⟩ := key junk sh
      obtain ⟨h', r, rfl, q1, q3, q5, q6, q8⟩ := hall r' hr
      rw [remaining_nil] at q1 hval
      have hone : ∀ j : List Int, orUnit 0 (remaining [] j) = [0] := fun j => by
        rw [remaining_nil]; rfl
      obtain ⟨v1, k, hk, -, v2⟩ := hval [0] (.cons (by decide) .nil)
      refine ⟨_, rfl, k, hk, fun j hj => ?_, ⟨q1, ?_, ?_⟩, withNums_frame q8, ?_⟩
      · rw [← v2]; exact v1 j hj (hone j)
      · refine contains_congr (withNums_contains q6) fun idx hv => ?_
        have hv' := hv
        rw [q1] at hv'
        match idx, hv' with
        | [i], .cons hi .nil =>
          have : i = 0 := by omega
          rw [this]
          exact congrArg _ v2
      · simp only [withNums]; simp only [nums] at q3 q5; omega
      · simp only [withNums]; simp only [nums] at q5; omega
  refine hmax.bind ?_
  rintro ⟨h1, norm⟩ ⟨k, k1, k2, k3, k4, k5⟩
  dsimp only at *
  refine (channel_binary _ (hd.frame k4 k5) k3).mono ?_
  rintro ⟨h2, r⟩ e
  exact ⟨k, k1, k2, e.shape, e.elems, Frame.trans k4 k5 e.frame⟩

/-- **C145 (sigma clipping).** If reading past the end of a shape only delivers some number,
`flag_sigmaclip` on the device returns, under every schedule and in exact arithmetic, flags with the
value 32 for exactly the samples that lie outside the bounds after the right number of rounds. The
samples left after each round must not be none, which `C145_some_left` gives for bounds of one
deviation or more.

Missing from C145: without the assumption the call is undefined (`C145_standard_undefined`); rounding
of `float`. -/
theorem C145_clip_partial (hroot : ∀ v, 0 ≤ sqrt v) (hlow : 0 ≤ low) (hhigh : 0 ≤ high)
    (B : Move.Build) (hB : B.cuda = true) (dev : Bliss.Device.Dev)
    (hdev : dev.kind = .cuda ∨ dev.kind = .cudaManaged) {data : Arr} {h : Heap (Val ℚ)}
    (hd : OnDevice h data) (hX : h.Contains data fun j => .num (X j)) (hc : Lists data.shape cells)
    (hsome : ∀ k, kept sqrt low high X cells k ≠ []) (maxIter : Int) (hiter : 1 ≤ maxIter) :
    Always (devSigmaclip (gpuRat sqrt) (fun x => decide (|x| < eps)) B dev low high maxIter h data)
      fun r => ∃ n, Rounds sqrt low high eps X cells maxIter n ∧ r.2.shape = data.shape ∧
        r.1.Contains r.2 (fun j =>
          .flag (if flagged sqrt low high X cells n j then 32 else 0)) ∧ h.Frame r.1 :=
  (clip_always hroot hlow hhigh B hB dev hdev ⟨hd, hX⟩ hc hsome maxIter hiter).mono
    fun _ ⟨n, h1, h2⟩ => ⟨n, h1, h2.shape, h2.elems, h2.frame⟩

/-- **C145 (the mask of the channel).** The new mask is the old one plus these flags, modulo 256.
Missing: as in `C145_clip_partial`. -/
theorem C145_channel_partial (hroot : ∀ v, 0 ≤ sqrt v) (hlow : 0 ≤ low) (hhigh : 0 ≤ high)
    (B : Move.Build) (hB : B.cuda = true) (dev : Bliss.Device.Dev)
    (hdev : dev.kind = .cuda ∨ dev.kind = .cudaManaged) {data flags : Arr} {h : Heap (Val ℚ)}
    {Y : List Int → UInt8} (hd : OnDevice h data) (hX : h.Contains data fun j => .num (X j))
    (hf : OnDevice h flags) (hY : h.Contains flags fun j => .flag (Y j))
    (hfs : flags.shape = data.shape) (hc : Lists data.shape cells)
    (hsome : ∀ k, kept sqrt low high X cells k ≠ []) (maxIter : Int) (hiter : 1 ≤ maxIter) :
    Always (devClipChannel (gpuRat sqrt) (fun x => decide (|x| < eps)) B dev low high maxIter h data
      flags) fun r => ∃ n, Rounds sqrt low high eps X cells maxIter n ∧ r.2.shape = data.shape ∧
        r.1.Contains r.2 (fun j =>
          .flag (Y j + if flagged sqrt low high X cells n j then 32 else 0)) ∧ h.Frame r.1 := by
  unfold devClipChannel
  refine (clip_always hroot hlow hhigh B hB dev hdev ⟨hd, hX⟩ hc hsome maxIter hiter).bind ?_
  rintro ⟨h1, r1⟩ ⟨n, hn, e1⟩
  dsimp only at *
  have n1 := e1.next
  have lf := hf.live
  refine (devBinary_made (by rw [hfs, e1.shape]; exact expandShapes_self) hf.pos
    (by rw [e1.shape]; exact hd.pos) hf.rank.2 hf.size (Contains.frame hY hf.live e1.frame) e1.elems
    (by omega) e1.live hf.narrow e1.narrow (.flag 0)).mono ?_
  rintro ⟨h2, r⟩ e
  refine ⟨n, hn, e.shape.trans hfs, contains_congr e.elems fun j hv => ?_,
    Frame.trans e1.frame n1 e.frame⟩
  have hb : bcIdx r1.shape j = j := by
    have hsh := e.shape
    dsimp only at hsh
    rw [e1.shape, ← hfs, ← hsh]; exact bcIdx_self hv
  rw [hb]
  rfl

theorem sum_lt_of_all_lt {f : List Int → ℚ} {c : ℚ} {l : List (List Int)} (hne : l ≠ [])
    (h : ∀ j ∈ l, c < f j) : l.length * c < (l.map f).sum := by
  induction l with
  | nil => exact absurd rfl hne
  | cons x l ih =>
    have hx := h x (by simp)
    by_cases hl : l = []
    · subst hl; simpa using hx
    · have := ih hl fun j hj => h j (by simp [hj])
      simp only [List.map_cons, List.sum_cons, List.length_cons, Nat.cast_add, Nat.cast_one]
      linarith

/-- **C145.** With bounds of at least one deviation, some sample is left after every round: not all
samples are more than a deviation away from their mean. The root may be rounded, but not down. -/
theorem C145_some_left (hroot : ∀ v, 0 ≤ sqrt v) (hup : ∀ v, 0 ≤ v → v ≤ sqrt v ^ 2)
    (hlow : 1 ≤ low) (hhigh : 1 ≤ high) (hne : cells ≠ []) (k : Nat) :
    kept sqrt low high X cells k ≠ [] := by
  induction k with
  | zero =>
    intro e
    apply hne
    unfold kept at e
    simpa [flagged] using e
  | succ k ih =>
    intro e
    have hall : ∀ j ∈ cells, flagged sqrt low high X cells (k + 1) j = true := by
      intro j hj
      by_contra hc
      have : j ∈ kept sqrt low high X cells (k + 1) :=
        List.mem_filter.mpr ⟨hj, by simpa using hc⟩
      rw [e] at this
      simp at this
    set u := kept sqrt low high X cells k with hu
    set m := meanOf X u with hm
    set s := devOf sqrt X u with hs
    have hs0 : 0 ≤ s := hroot _
    have hfar : ∀ j ∈ u, s ^ 2 < (X j - m) ^ 2 := by
      intro j hj
      have := hall j (List.mem_filter.mp hj).1
      rw [flagged_succ] at this
      simp only [Bool.or_eq_true, decide_eq_true_eq] at this
      rcases this with h1 | h1
      · have h2 : s * 1 ≤ s * low := mul_le_mul_of_nonneg_left hlow hs0
        have h3 : X j - m < -s := by linarith
        nlinarith
      · have h2 : s * 1 ≤ s * high := mul_le_mul_of_nonneg_left hhigh hs0
        have h3 : s < X j - m := by linarith
        nlinarith
    have hlt := sum_lt_of_all_lt (f := fun j => (X j - m) ^ 2) ih hfar
    have hlen : (0 : ℚ) < u.length := by
      exact_mod_cast List.length_pos_of_ne_nil ih
    have hvar : s ^ 2 < popVar X u := by
      unfold popVar
      rw [lt_div_iff₀ hlen]
      have : m = (u.map X).sum / u.length := rfl
      rw [← this]
      linarith
    have := hup (popVar X u) (le_of_lt (lt_of_le_of_lt (sq_nonneg s) hvar))
    exact absurd hvar (not_lt.mpr this)

end Claims

/-! ## Concrete cases -/

/-- Five samples, the last one far off. -/
def outlier : List Int → ℚ := fun j => if j = [0, 4] then 10 else 0

/-- A root for the example, nowhere too small. -/
def outlierRoot (v : ℚ) : ℚ := if v = 16 then 4 else max v 1

/-- A block with these samples. -/
def outlierHeap : Heap (Val ℚ) where
  mem b i := if b = 0 ∧ 0 ≤ i ∧ i < 5 then some (.num (if i = 4 then 10 else 0)) else none
  next := 1

def outlierCells : List (List Int) := [[0, 0], [0, 1], [0, 2], [0, 3], [0, 4]]

theorem outlier_index {j : List Int} (hv : ValidIdx [1, 5] j) : ∃ i, j = [0, i] ∧ 0 ≤ i ∧ i < 5 := by
  match j, hv with
  | [x, i], .cons hx (.cons hi .nil) =>
    have : x = 0 := by omega
    exact ⟨i, by rw [this], hi.1, hi.2⟩

example : OnDevice outlierHeap (dense 0 [1, 5]) ∧
    outlierHeap.Contains (dense 0 [1, 5]) (fun j => .num (outlier j)) ∧
    Lists (dense 0 [1, 5]).shape outlierCells := by
  refine ⟨⟨by decide, by decide, by decide, by decide, ?_, by decide⟩, ?_, by decide, ?_⟩
  · intro j hv
    obtain ⟨i, rfl, h1, h2⟩ := outlier_index hv
    have : addr (dense 0 [1, 5]).dims [0, i] - (dense 0 [1, 5]).base = i := by
      simp [dense, denseDims, addr, Arr.base]
    omega
  · intro j hv
    obtain ⟨i, rfl, h1, h2⟩ := outlier_index hv
    have : addr (dense 0 [1, 5]).dims [0, i] = i := by simp [dense, denseDims, addr]
    unfold Heap.get
    rw [this]
    have hb : (dense 0 [1, 5]).blk = 0 := rfl
    simp [outlierHeap, outlier, hb, h1, h2]
  · intro j
    refine ⟨fun h => ?_, fun hv => ?_⟩
    · simp only [outlierCells, List.mem_cons, List.not_mem_nil, or_false] at h
      rcases h with rfl | rfl | rfl | rfl | rfl <;>
        exact .cons (by decide) (.cons (by decide) .nil)
    · obtain ⟨i, rfl, h1, h2⟩ := outlier_index hv
      have : i = 0 ∨ i = 1 ∨ i = 2 ∨ i = 3 ∨ i = 4 := by omega
      rcases this with rfl | rfl | rfl | rfl | rfl <;> simp [outlierCells]

example : (∀ v, 0 ≤ outlierRoot v) ∧ (∀ v, 0 ≤ v → v ≤ outlierRoot v ^ 2) := by
  refine ⟨fun v => ?_, fun v hv => ?_⟩ <;> unfold outlierRoot <;> split
  · norm_num
  · exact le_trans zero_le_one (le_max_right _ _)
  · subst_vars; norm_num
  · nlinarith [le_max_left v 1, le_max_right v 1]

-- mean 2, deviation 4: with bounds of one and a half deviations the last sample is flagged
example : flagged outlierRoot (3 / 2) (3 / 2) outlier outlierCells 1 [0, 4] = true ∧
    flagged outlierRoot (3 / 2) (3 / 2) outlier outlierCells 1 [0, 0] = false := by
  decide +kernel

end Bliss.Gpu
