import Verif.Gpu.Finish
import Mathlib.Data.List.Perm.Basic
import Mathlib.Data.List.Forall2
import Mathlib.Data.List.TakeWhile

/-!
# From the kernels to the result of the GPU component search
-/

namespace Bliss.Gpu

open Bliss.Comp

section
variable {F : Type} [Sub F] [Div F] [LinearOrder F] [OfNat F 0] [OfNat F 2]
variable {s : Search F} {cap : Int} {G : Nat} {μ : InitMem F}

/-- Two peaks touch: a cell that leads to the first has a cell that leads to the second among the
cells the merge compares it with. -/
def Touch (s : Search F) (r r' : Nat) : Prop :=
  ∃ n n' : Nat, Leads s n r ∧ Leads s n' r' ∧ cellAt s.grid n' ∈ mergeHood s (cellAt s.grid n)

/-- Peaks connected through touching peaks. -/
def Joined (s : Search F) : Nat → Nat → Prop := Relation.EqvGen (Touch s)

/-- Peak `r` is preferred to `r'`: higher SNR, or equal SNR and an earlier position. -/
def Prefer (s : Search F) (r r' : Nat) : Prop :=
  s.snr (cellAt s.grid r') < s.snr (cellAt s.grid r) ∨
    (s.snr (cellAt s.grid r) = s.snr (cellAt s.grid r') ∧ r < r')

/-- A peak that is preferred to every other peak connected to it. -/
def Survives (s : Search F) (r : Nat) : Prop :=
  (r < numel s ∧ classify s (cellAt s.grid r) = .peak) ∧ ∀ r', Joined s r r' → r' = r ∨ Prefer s r r'

/-- Labels given out by the first kernel. -/
def InUse (μ : InitMem F) (i : Int) : Prop := ∃ k n : Nat, μ.claims[k]? = some n ∧ i = 8 + k

omit [Sub F] [Div F] [LinearOrder F] [OfNat F 0] [OfNat F 2] in
theorem inUse_finite : {i | InUse μ i}.Finite := by
  refine ((Finset.range μ.claims.length).image fun k : Nat => (8 + k : Int)).finite_toSet.subset ?_
  rintro i ⟨k, n, hk, rfl⟩
  have : k < μ.claims.length := (List.getElem?_eq_some_iff.1 hk).1
  simpa using this

omit [Sub F] [Div F] [LinearOrder F] [OfNat F 0] [OfNat F 2] in
/-- The cells visited by the merge lie in the plane. -/
theorem mergeHood_has {x y : Coord} (h : y ∈ mergeHood s x) : s.grid.has y := by
  simp only [mergeHood, List.mem_flatMap, List.mem_map] at h
  obtain ⟨f, hf, d, hd, rfl⟩ := h
  have h1 := List.mem_takeWhile_imp hf
  have h2 := List.mem_takeWhile_imp hd
  simp only [decide_eq_true_eq] at h1 h2
  simp only [Grid.has]
  omega

/-- The labels after the second kernel. -/
def Labelled (s : Search F) (μ : InitMem F) (lab : Buf Int) : Prop :=
  ∀ n : Nat, n < numel s → ∃ v, lab n = some v ∧ Final s μ n v

theorem Final.inUse {n : Nat} {v : Int} (h : Final s μ n v) (hv : 8 ≤ v) :
    ∃ r k : Nat, Leads s n r ∧ μ.claims[k]? = some r ∧ v = 8 + k := by
  rcases h with h | ⟨_, rfl⟩
  · exact h
  · omega

theorem labelled_at {lab : Buf Int} (hl : Labelled s μ lab) {n : Nat} (hn : n < numel s) :
    Final s μ n (labelAt lab n) := by
  obtain ⟨v, hv, hf⟩ := hl n hn
  simpa [labelAt, hv] using hf

/-- The pairs the merge joins are the labels of touching peaks. -/
theorem edges_touch (hG : 0 < G) {lab : Buf Int} (hl : Labelled s μ lab) {a b : Int} {t : Fin G}
    (h : edgesOf (mergeWork s lab G t) a b) :
    ∃ k k' r r' : Nat, μ.claims[k]? = some r ∧ μ.claims[k']? = some r' ∧ a = 8 + k ∧ b = 8 + k' ∧
      Touch s r r' := by
  obtain ⟨qs, h, hb⟩ := h
  simp only [mergeWork, List.mem_filterMap, Option.ite_none_right_eq_some, Option.some.injEq,
    Prod.mk.injEq] at h
  obtain ⟨n, hn, hn8, rfl, rfl⟩ := h
  simp only [List.mem_filter, List.mem_map, decide_eq_true_eq] at hb
  obtain ⟨⟨y, hy, rfl⟩, hb8⟩ := hb
  have hn' : n < numel s := ((mem_gridStride hG).1 hn).1
  obtain ⟨m, hm, hmy, hlin⟩ := has_lin (mergeHood_has hy)
  rw [hlin] at hb8 ⊢
  obtain ⟨r, k, h1, h2, h3⟩ := (labelled_at hl hn').inUse hn8
  obtain ⟨r', k', h1', h2', h3'⟩ := (labelled_at hl hm).inUse hb8
  exact ⟨k, k', r, r', h2, h2', h3, h3', n, m, h1, h1', hmy ▸ hy⟩

theorem touch_edges (hG : 0 < G) (hi : Initialised s cap μ) {lab : Buf Int}
    (hl : Labelled s μ lab) {r r' k k' : Nat} (hk : μ.claims[k]? = some r)
    (hk' : μ.claims[k']? = some r') (h : Touch s r r') :
    ∃ t, edgesOf (mergeWork s lab G t) (8 + k) (8 + k') := by
  obtain ⟨n, m, hn, hm, hy⟩ := h
  have e1 : labelAt lab n = 8 + k :=
    Final.unique hi (labelled_at hl hn.lt) (.inl ⟨r, k, hn, hk, rfl⟩)
  have e2 : labelAt lab m = 8 + k' :=
    Final.unique hi (labelled_at hl hm.lt) (.inl ⟨r', k', hm, hk', rfl⟩)
  refine ⟨⟨n % G, Nat.mod_lt _ hG⟩, ((mergeHood s (cellAt s.grid n)).map fun y =>
        labelAt lab (lin s.grid y)).filter fun q => decide (8 ≤ q), ?_, ?_⟩
  · simp only [mergeWork, List.mem_filterMap, Option.ite_none_right_eq_some, Option.some.injEq,
      Prod.mk.injEq]
    exact ⟨n, mem_gridStride_mod hG hn.lt, by omega, e1, rfl⟩
  · simp only [List.mem_filter, List.mem_map, decide_eq_true_eq]
    exact ⟨⟨_, hy, by rw [lin_cellAt, e2]⟩, by omega⟩

theorem claims_inj (hi : Initialised s cap μ) {k k' r : Nat} (hk : μ.claims[k]? = some r)
    (hk' : μ.claims[k']? = some r) : k = k' :=
  (List.getElem?_inj (List.getElem?_eq_some_iff.1 hk).1 hi.nodup).1 (hk.trans hk'.symm)

/-- Connected labels are those of connected peaks. -/
theorem linked_joined (hG : 0 < G) {lab : Buf Int} (hl : Labelled s μ lab) {a b : Int}
    (h : Linked (mergeWork s lab G) a b) :
    a = b ∨ ∃ k k' r r' : Nat, μ.claims[k]? = some r ∧ μ.claims[k']? = some r' ∧ a = 8 + k ∧
      b = 8 + k' ∧ Joined s r r' := by
  induction h with
  | rel x y h =>
    obtain ⟨t, ht⟩ := h
    obtain ⟨k, k', r, r', h1, h2, h3, h4, h5⟩ := edges_touch hG hl ht
    exact .inr ⟨k, k', r, r', h1, h2, h3, h4, .rel _ _ h5⟩
  | refl x => exact .inl rfl
  | symm x y _ ih =>
    rcases ih with rfl | ⟨k, k', r, r', h1, h2, h3, h4, h5⟩
    · exact .inl rfl
    · exact .inr ⟨k', k, r', r, h2, h1, h4, h3, h5.symm⟩
  | trans x y z _ _ ih ih' =>
    rcases ih with rfl | ⟨k, k', r, r', h1, h2, h3, h4, h5⟩
    · exact ih'
    · rcases ih' with rfl | ⟨l, l', q, q', g1, g2, g3, g4, g5⟩
      · exact .inr ⟨k, k', r, r', h1, h2, h3, h4, h5⟩
      · have : k' = l := by omega
        subst this
        rw [h2] at g1
        obtain rfl := Option.some.inj g1
        exact .inr ⟨k, l', r, q', h1, g2, h3, g4, h5.trans _ _ _ g5⟩

theorem joined_linked (hG : 0 < G) (hi : Initialised s cap μ) {lab : Buf Int}
    (hl : Labelled s μ lab) {r r' : Nat} (h : Joined s r r') :
    r = r' ∨ ∃ k k' : Nat, μ.claims[k]? = some r ∧ μ.claims[k']? = some r' ∧
      Linked (mergeWork s lab G) (8 + k) (8 + k') := by
  induction h with
  | rel x y h =>
    obtain ⟨n, m, hn, hm, _⟩ := id h
    obtain ⟨k, hk⟩ := List.mem_iff_getElem?.1 ((hi.mem x).2 hn.is_peak)
    obtain ⟨k', hk'⟩ := List.mem_iff_getElem?.1 ((hi.mem y).2 hm.is_peak)
    exact .inr ⟨k, k', hk, hk', .rel _ _ (touch_edges hG hi hl hk hk' h)⟩
  | refl x => exact .inl rfl
  | symm x y _ ih =>
    rcases ih with rfl | ⟨k, k', h1, h2, h3⟩
    · exact .inl rfl
    · exact .inr ⟨k', k, h2, h1, h3.symm⟩
  | trans x y z _ _ ih ih' =>
    rcases ih with rfl | ⟨k, k', h1, h2, h3⟩
    · exact ih'
    · rcases ih' with rfl | ⟨l, l', g1, g2, g3⟩
      · exact .inr ⟨k, k', h1, h2, h3⟩
      · obtain rfl := claims_inj hi h2 g1
        exact .inr ⟨k, l', h1, g2, h3.trans _ _ _ g3⟩

/-- The second kernel leaves what the merge needs. -/
theorem merge_ready (hG : 0 < G) (hi : Initialised s cap μ) {lab : Buf Int}
    (hl : Labelled s μ lab) : MergeReady (InUse μ) μ.slots (mergeWork s lab G) where
  slot := by
    rintro i ⟨k, n, hk, rfl⟩
    exact ⟨_, hi.slot k n hk, rfl⟩
  pos := by rintro i ⟨k, n, hk, rfl⟩; omega
  inj := by
    rintro i j a b ⟨k, n, hk, rfl⟩ ⟨k', n', hk', rfl⟩ ha hb hab
    rw [hi.slot k n hk] at ha
    rw [hi.slot k' n' hk'] at hb
    cases ha; cases hb
    have : n = n' := by simpa using hab
    subst this
    rw [claims_inj hi hk hk']
  work := by
    intro t p qs h
    simp only [mergeWork, List.mem_filterMap, Option.ite_none_right_eq_some, Option.some.injEq,
      Prod.mk.injEq] at h
    obtain ⟨n, hn, hn8, rfl, rfl⟩ := h
    have hn' : n < numel s := ((mem_gridStride hG).1 hn).1
    obtain ⟨r, k, h1, h2, h3⟩ := (labelled_at hl hn').inUse hn8
    refine ⟨⟨k, r, h2, h3⟩, fun q hq => ?_⟩
    simp only [List.mem_filter, List.mem_map, decide_eq_true_eq] at hq
    obtain ⟨⟨y, hy, rfl⟩, hb8⟩ := hq
    obtain ⟨m, hm, hmy, hlin⟩ := has_lin (mergeHood_has hy)
    rw [hlin] at hb8 ⊢
    obtain ⟨r', k', h1', h2', h3'⟩ := (labelled_at hl hm).inUse hb8
    exact ⟨k', r', h2', h3'⟩

/-- After every complete execution of the merge exactly the surviving peaks are valid. -/
theorem merge_survivors (hG : 0 < G) (hi : Initialised s cap μ) {lab : Buf Int}
    (hl : Labelled s μ lab) {stale : Bool} {slots : Buf (Slot F)}
    (h : Completes (MergeStep stale) (mergeInit (mergeWork s lab G)) μ.slots slots)
    {k n : Nat} (hk : μ.claims[k]? = some n) :
    ∃ v, slots (8 + k) = some ⟨n, s.snr (cellAt s.grid n), v⟩ ∧ (v = 0 ↔ Survives s n) := by
  obtain ⟨h1, _⟩ := merge_result (merge_ready hG hi hl) inUse_finite h
  obtain ⟨a, v, ha, hv, hiff⟩ := h1 (8 + k) ⟨k, n, hk, rfl⟩
  rw [hi.slot k n hk] at ha
  obtain rfl := Option.some.inj ha
  refine ⟨v, hv, hiff.trans ⟨fun hb => ⟨?_, fun r' hj => ?_⟩, fun hs j b hlink hb => ?_⟩⟩
  · exact (hi.mem n).1 (List.mem_iff_getElem?.2 ⟨k, hk⟩)
  · rcases joined_linked hG hi hl hj with rfl | ⟨k0, k', g1, g2, g3⟩
    · exact .inl rfl
    · obtain rfl := claims_inj hi hk g1
      rcases hb _ _ g3 (hi.slot k' r' g2) with he | hbet
      · have : k' = k := by omega
        subst this
        rw [hk] at g2
        exact .inl (Option.some.inj g2).symm
      · rcases hbet with hb | ⟨hb, hb'⟩
        · exact .inr (.inl hb)
        · exact .inr (.inr ⟨hb, by simpa using hb'⟩)
  · rcases linked_joined hG hl hlink with rfl | ⟨k0, k', r, r', g1, g2, g3, g4, g5⟩
    · exact .inl rfl
    · have : k = k0 := by omega
      subst this
      rw [hk] at g1
      obtain rfl := Option.some.inj g1
      subst g4
      rw [hi.slot k' r' g2] at hb
      obtain rfl := Option.some.inj hb
      rcases hs.2 r' g5 with rfl | hp
      · rw [claims_inj hi hk g2]; exact .inl rfl
      · rcases hp with hp | ⟨hp, hp'⟩
        · exact .inr (.inl hp)
        · exact .inr (.inr ⟨hp, by simpa using hp'⟩)

/-! ## Measuring and exporting -/

/-- Two label memories agree on which cells are labelled. -/
def SameSupport (s : Search F) (lab lab' : Buf Int) : Prop :=
  ∀ n : Nat, n < numel s → ∃ v v', lab n = some v ∧ lab' n = some v' ∧ (1 < v ↔ 1 < v')

theorem sameSupport {μ' : InitMem F} {lab lab' : Buf Int} (hl : Labelled s μ lab)
    (hl' : Labelled s μ' lab') : SameSupport s lab lab' := by
  intro n hn
  obtain ⟨v, hv, hf⟩ := hl n hn
  obtain ⟨v', hv', hf'⟩ := hl' n hn
  refine ⟨v, v', hv, hv', ?_⟩
  rcases hf with ⟨r, k, h1, h2, rfl⟩ | ⟨h1, rfl⟩ <;> rcases hf' with ⟨r', k', h1', h2', rfl⟩ | ⟨h1', rfl⟩
  · omega
  · exact absurd ⟨r, h1⟩ h1'
  · exact absurd ⟨r', h1'⟩ h1
  · simp

omit [Sub F] [Div F] [LinearOrder F] [OfNat F 0] [OfNat F 2] in
theorem SameSupport.at {lab lab' : Buf Int} (h : SameSupport s lab lab') {x : Coord}
    (hx : s.grid.has x) : ∃ v v', lab.load (lin s.grid x) = .ok v ∧
      lab'.load (lin s.grid x) = .ok v' ∧ (1 < v ↔ 1 < v') := by
  obtain ⟨n, hn, _, e⟩ := has_lin hx
  obtain ⟨v, v', h1, h2, h3⟩ := h n hn
  exact ⟨v, v', by simp [Buf.load, e, h1], by simp [Buf.load, e, h2], h3⟩

omit [Sub F] [Div F] [LinearOrder F] [OfNat F 0] [OfNat F 2] in
theorem lowerEdge_ok {lab lab' : Buf Int} (h : SameSupport s lab lab') {d : Int} (hd : 0 ≤ d)
    (hd' : d < s.grid.drifts) (fuel : Nat) (e : Int) (he : 1 ≤ e) (he' : e ≤ s.grid.chans)
    (hf : e ≤ fuel) :
    ∃ r, lowerEdge s.grid lab d fuel e = .ok r ∧ lowerEdge s.grid lab' d fuel e = .ok r := by
  induction fuel generalizing e with
  | zero => simp at hf; omega
  | succ fuel ih =>
    obtain ⟨v, v', h1, h2, h3⟩ := h.at (x := (d, e - 1)) ⟨hd, hd', by omega, by omega⟩
    simp only [lowerEdge, h1, h2, Outcome.bind_ok]
    by_cases hc : 1 < v ∧ 0 < e - 1
    · rw [if_pos hc, if_pos ⟨h3.1 hc.1, hc.2⟩]
      exact ih (e - 1) (by omega) (by omega) (by push_cast at hf; omega)
    · rw [if_neg hc, if_neg fun hc' => hc ⟨h3.2 hc'.1, hc'.2⟩]
      exact ⟨_, rfl, rfl⟩

omit [Sub F] [Div F] [LinearOrder F] [OfNat F 0] [OfNat F 2] in
theorem upperEdge_ok {lab lab' : Buf Int} (h : SameSupport s lab lab') {d : Int} (hd : 0 ≤ d)
    (hd' : d < s.grid.drifts) (fuel : Nat) (e : Int) (he : 0 ≤ e + 1) (he' : e + 1 < s.grid.chans)
    (hf : s.grid.chans ≤ e + 1 + fuel) :
    ∃ r, upperEdge s.grid lab d fuel e = .ok r ∧ upperEdge s.grid lab' d fuel e = .ok r := by
  induction fuel generalizing e with
  | zero => simp at hf; omega
  | succ fuel ih =>
    obtain ⟨v, v', h1, h2, h3⟩ := h.at (x := (d, e + 1)) ⟨hd, hd', by omega, by omega⟩
    simp only [upperEdge, h1, h2, Outcome.bind_ok]
    by_cases hc : 1 < v ∧ e + 1 < s.grid.chans - 1
    · rw [if_pos hc, if_pos ⟨h3.1 hc.1, hc.2⟩]
      exact ih (e + 1) (by omega) (by omega) (by push_cast at hf; omega)
    · rw [if_neg hc, if_neg fun hc' => hc ⟨h3.2 hc'.1, hc'.2⟩]
      exact ⟨_, rfl, rfl⟩

/-- A peak is at least one channel away from the border. -/
theorem peak_interior (hd : 2 ≤ s.dist) {x : Coord} (h : classify s x = .peak) :
    0 ≤ x.1 ∧ x.1 < s.grid.drifts ∧ 1 ≤ x.2 ∧ x.2 + 1 < s.grid.chans := by
  obtain ⟨_, _, hall⟩ := classify_peak.1 h
  have habs : |(1 : Int)| = 1 := rfl
  have h1 := (hall (x.1, x.2 - 1) (mem_hood.2 (mem_l1Offsets.2 (by simp [habs]; omega)))).1
  have h2 := (hall (x.1, x.2 + 1) (mem_hood.2 (mem_l1Offsets.2 (by simp [habs]; omega)))).1
  simp only [Grid.has] at h1 h2
  omega

/-- Measuring a peak succeeds and does not depend on how the peaks are numbered. -/
theorem collect_ok (hd : 2 ≤ s.dist) {lab lab' : Buf Int} (h : SameSupport s lab lab') {n : Nat}
    (hp : classify s (cellAt s.grid n) = .peak) (v v' : Int) :
    ∃ x, collectOne s lab ⟨n, s.snr (cellAt s.grid n), v⟩ = .ok x ∧
      collectOne s lab' ⟨n, s.snr (cellAt s.grid n), v'⟩ = .ok x ∧
      x.indexMax = cellAt s.grid n ∧ x.snr = s.snr (cellAt s.grid n) := by
  obtain ⟨h1, h2, h3, h4⟩ := peak_interior hd hp
  obtain ⟨lo, a1, a2⟩ := lowerEdge_ok h h1 h2 (s.grid.chans + 1) (cellAt s.grid n).2 h3 (by omega)
    (by push_cast; omega)
  obtain ⟨hi, b1, b2⟩ := upperEdge_ok h h1 h2 (s.grid.chans + 1) (cellAt s.grid n).2 (by omega)
    (by omega) (by push_cast; omega)
  simp only [collectOne, Int.toNat_natCast, a1, a2, b1, b2, Outcome.bind_ok]
  exact ⟨_, rfl, rfl, rfl, rfl⟩

open Classical in
/-- Export: the survivors, in the order of their numbers, each measured. -/
theorem export_ok {slots : Buf (Slot F)} {lab : Buf Int} (L : List Nat) (id : Int)
    (hs : ∀ (k n : Nat), L[k]? = some n →
      ∃ v, slots (id + k) = some ⟨n, s.snr (cellAt s.grid n), v⟩ ∧ (v = 0 ↔ Survives s n))
    (hc : ∀ n ∈ L, Survives s n →
      ∃ x, collectOne s lab ⟨n, s.snr (cellAt s.grid n), 0⟩ = .ok x) :
    ∃ out, exportFrom s slots lab L.length id = .ok out ∧
      List.Forall₂ (fun (n : Nat) x => collectOne s lab ⟨n, s.snr (cellAt s.grid n), 0⟩ = .ok x)
        (L.filter fun n => decide (Survives s n)) out := by
  induction L generalizing id with
  | nil => exact ⟨[], rfl, by simp⟩
  | cons n L ih =>
    obtain ⟨v, hv, hiff⟩ := hs 0 n rfl
    simp only [Nat.cast_zero, add_zero] at hv
    obtain ⟨out, ho, hf⟩ := ih (id + 1) (fun k m hk => by
      have := hs (k + 1) m (by simpa using hk)
      rwa [show id + ((k + 1 : Nat) : Int) = id + 1 + k by push_cast; omega] at this)
      (fun m hm => hc m (by simp [hm]))
    have hload : slots.load id = .ok ⟨n, s.snr (cellAt s.grid n), v⟩ := by simp [Buf.load, hv]
    simp only [List.length_cons, exportFrom, hload, Outcome.bind_ok]
    by_cases hS : Survives s n
    · have hv0 := hiff.2 hS
      subst hv0
      obtain ⟨x, hx⟩ := hc n (by simp) hS
      rw [if_pos rfl, hx, ho]
      refine ⟨x :: out, rfl, ?_⟩
      rw [List.filter_cons_of_pos (by simpa using hS)]
      exact .cons hx hf
    · rw [if_neg fun h0 => hS (hiff.1 h0)]
      refine ⟨out, ho, ?_⟩
      rw [List.filter_cons_of_neg (by simpa using hS)]
      exact hf

end
end Bliss.Gpu
