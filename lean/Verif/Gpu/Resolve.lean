import Verif.Gpu.Init

/-!
# The second kernel of the GPU component search

Threads read labels that other threads are rewriting. Every label read is either the one the
first kernel left or the final one, and both lead to the same peak.
-/

namespace Bliss.Gpu

open Bliss.Comp

section
variable {F : Type} [Sub F] [Div F] [LinearOrder F] [OfNat F 0] [OfNat F 2]

/-- From cell `n`, going to the strongest neighbour again and again ends in the peak `r`. -/
inductive Leads (s : Search F) : Nat → Nat → Prop
  | peak {n : Nat} (hn : n < numel s) (h : classify s (cellAt s.grid n) = .peak) : Leads s n n
  | toward {n m r : Nat} (hn : n < numel s) (h : classify s (cellAt s.grid n) = .toward m)
      (hr : Leads s m r) : Leads s n r

section Kernel
variable {s : Search F} {cap : Int} {G : Nat} {μ : InitMem F}

theorem Leads.unique {n r r' : Nat} (h : Leads s n r) (h' : Leads s n r') : r = r' := by
  induction h with
  | peak hn hc =>
    cases h' with
    | peak => rfl
    | toward _ h _ => rw [hc] at h; cases h
  | toward hn hc _ ih =>
    cases h' with
    | peak _ h => rw [hc] at h; cases h
    | toward _ h hr =>
      rw [hc] at h
      have := Int.ofNat_inj.1 (Class.toward.inj h)
      subst this; exact ih hr

theorem Leads.is_peak {n r : Nat} (h : Leads s n r) :
    r < numel s ∧ classify s (cellAt s.grid r) = .peak := by
  induction h with
  | peak hn hc => exact ⟨hn, hc⟩
  | toward _ _ _ ih => exact ih

theorem Leads.lt {n r : Nat} (h : Leads s n r) : n < numel s := by
  cases h <;> assumption

/-- The final label of cell `n`: the number of the peak it leads to, 0 if it leads to none. -/
def Final (s : Search F) (μ : InitMem F) (n : Nat) (v : Int) : Prop :=
  (∃ (r k : Nat), Leads s n r ∧ μ.claims[k]? = some r ∧ v = 8 + k) ∨
    ((¬ ∃ r, Leads s n r) ∧ v = 0)

theorem Final.unique (hi : Initialised s cap μ) {n : Nat} {v v' : Int} (h : Final s μ n v)
    (h' : Final s μ n v') : v = v' := by
  rcases h with ⟨r, k, h1, h2, rfl⟩ | ⟨h1, rfl⟩ <;> rcases h' with ⟨r', k', h1', h2', rfl⟩ | ⟨h1', rfl⟩
  · have := h1.unique h1'
    subst this
    have hlt : k < μ.claims.length := (List.getElem?_eq_some_iff.1 h2).1
    have : k = k' := (List.getElem?_inj hlt hi.nodup).1 (h2.trans h2'.symm)
    rw [this]
  · exact absurd ⟨r, h1⟩ h1'
  · exact absurd ⟨r', h1'⟩ h1
  · rfl

theorem Final.exists (hi : Initialised s cap μ) (n : Nat) : ∃ v, Final s μ n v := by
  by_cases h : ∃ r, Leads s n r
  · obtain ⟨r, hr⟩ := h
    obtain ⟨k, hk⟩ := List.mem_iff_getElem?.1 ((hi.mem r).2 hr.is_peak)
    exact ⟨_, .inl ⟨r, k, hr, hk, rfl⟩⟩
  · exact ⟨0, .inr ⟨h, rfl⟩⟩

theorem Final.lt (hi : Initialised s cap μ) {n : Nat} {v : Int} (h : Final s μ n v) :
    0 ≤ v ∧ v < cap := by
  have := hi.room
  rcases h with ⟨r, k, _, h2, rfl⟩ | ⟨_, rfl⟩
  · have hlt : k < μ.claims.length := (List.getElem?_eq_some_iff.1 h2).1
    omega
  · omega

/-- The value `c` tells where cell `n` leads to. -/
def Res (s : Search F) (cap : Int) (μ : InitMem F) (n : Nat) (c : Int) : Prop :=
  (c < cap ∧ Final s μ n c) ∨
    ∃ m : Nat, c = cap + m ∧ m ≠ 0 ∧ m < numel s ∧ ∀ v, Final s μ m v → Final s μ n v

/-- Memory invariant: labels are as left by the first kernel or final. -/
def RInv (s : Search F) (μ : InitMem F) (lab : Buf Int) : Prop :=
  ∀ n : Nat, n < numel s → ∃ c, lab n = some c ∧ (μ.labels n = some c ∨ Final s μ n c)

/-- No cell points to position 0, see `toward_pos`. -/
def NoZero (s : Search F) : Prop := ∀ x m, classify s x = .toward m → m ≠ 0

theorem toward_cell {x : Coord} {m : Int} (h : classify s x = .toward m) :
    ∃ k : Nat, m = k ∧ k < numel s ∧ s.snr x < s.snr (cellAt s.grid k) ∧
      cellAt s.grid k ∈ hood s x := by
  obtain ⟨_, h2, y, hy, rfl, h3, _⟩ := classify_toward h
  obtain ⟨k, hk, e, e'⟩ := has_lin (h2 y hy)
  exact ⟨k, e', hk, e ▸ h3, e ▸ hy⟩

theorem res_initial (hi : Initialised s cap μ) (hz : NoZero s) {n : Nat} (hn : n < numel s)
    {c : Int} (h : μ.labels n = some c) : Res s cap μ n c := by
  have hroom := hi.room
  cases hc : classify s (cellAt s.grid n) with
  | skip =>
    have := hi.skip n hn hc
    rw [h] at this
    obtain rfl := Option.some.inj this
    refine .inl ⟨by omega, .inr ⟨?_, rfl⟩⟩
    rintro ⟨r, hr⟩
    cases hr with
    | peak _ h => rw [hc] at h; cases h
    | toward _ h _ => rw [hc] at h; cases h
  | peak =>
    obtain ⟨k, hk⟩ := List.mem_iff_getElem?.1 ((hi.mem n).2 ⟨hn, hc⟩)
    have := hi.peak k n hk
    rw [h] at this
    obtain rfl := Option.some.inj this
    have hlt : k < μ.claims.length := (List.getElem?_eq_some_iff.1 hk).1
    exact .inl ⟨by omega, .inl ⟨n, k, .peak hn hc, hk, rfl⟩⟩
  | toward m =>
    have := hi.toward n m hn hc
    rw [h] at this
    obtain rfl := Option.some.inj this
    obtain ⟨k, rfl, hk, _⟩ := toward_cell hc
    refine .inr ⟨k, rfl, by exact_mod_cast hz _ _ hc, hk, fun v hv => ?_⟩
    rcases hv with ⟨r, k', h1, h2, h3⟩ | ⟨h1, h2⟩
    · exact .inl ⟨r, k', .toward hn hc h1, h2, h3⟩
    · refine .inr ⟨?_, h2⟩
      rintro ⟨r, hr⟩
      cases hr with
      | peak _ h => rw [hc] at h; cases h
      | toward _ h hr =>
        rw [hc] at h
        have := Int.ofNat_inj.1 (Class.toward.inj h)
        subst this
        exact h1 ⟨r, hr⟩

theorem RInv.res (hi : Initialised s cap μ) (hz : NoZero s) {lab : Buf Int} (hI : RInv s μ lab)
    {n : Nat} (hn : n < numel s) {c : Int} (h : lab n = some c) : Res s cap μ n c := by
  obtain ⟨c', hc', h1⟩ := hI n hn
  rw [h] at hc'
  obtain rfl := Option.some.inj hc'
  rcases h1 with h1 | h1
  · exact res_initial hi hz hn h1
  · exact .inl ⟨(h1.lt hi).2, h1⟩

/-- Cells a thread has still to finish. -/
def rpending : RState → List Nat
  | .done => []
  | .test n w | .root n w | .climb n _ w | .store n _ w => n :: w

/-- Assertion about the step in progress. -/
def RPc (s : Search F) (cap : Int) (μ : InitMem F) : RState → Prop
  | .climb n c _ => Res s cap μ n c ∧ cap < c
  | .store n v _ => Final s μ n v
  | _ => True

/-- Thread assertion. -/
structure RAssert (s : Search F) (cap : Int) (μ : InitMem F) (G : Nat) (t : Fin G) (l : RState)
    (lab : Buf Int) : Prop where
  owned : ∀ n ∈ rpending l, n < numel s ∧ n % G = t
  pc : RPc s cap μ l
  fin : ∀ n, n < numel s → n % G = t → n ∉ rpending l → ∃ v, lab n = some v ∧ Final s μ n v

theorem rassert_next {t : Fin G} {lab : Buf Int} {w : List Nat}
    (hown : ∀ n ∈ w, n < numel s ∧ n % G = t)
    (hfin : ∀ n, n < numel s → n % G = t → n ∉ w → ∃ v, lab n = some v ∧ Final s μ n v) :
    RAssert s cap μ G t (rnext w) lab := by
  cases w with
  | nil => exact ⟨by simp [rnext, rpending], trivial, by simpa [rnext, rpending] using hfin⟩
  | cons n w => exact ⟨hown, trivial, hfin⟩

theorem rpc_after (hi : Initialised s cap μ) {n : Nat} {c : Int} {w : List Nat}
    (h : Res s cap μ n c) : RPc s cap μ (rafter cap n c w) := by
  unfold rafter
  split
  · exact ⟨h, ‹_›⟩
  · rename_i hlt
    rcases h with ⟨h1, h2⟩ | ⟨m, rfl, hm, _⟩
    · simpa [RPc, h1] using h2
    · omega

theorem rpending_after {n : Nat} {c : Int} {w : List Nat} :
    rpending (rafter cap n c w) = n :: w := by
  unfold rafter; split <;> rfl

theorem resolve_safe {t : Fin G} {l : RState} {lab : Buf Int}
    (hI : RInv s μ lab) (hi : Initialised s cap μ) (hT : RAssert s cap μ G t l lab) :
    ¬ ResolveStep cap l lab .ub := by
  have key : ∀ n : Nat, n < numel s → lab n ≠ none := fun n hn h => by
    obtain ⟨c, hc, _⟩ := hI n hn
    rw [h] at hc; cases hc
  intro h
  cases h with
  | @testBad n w _ h => exact key n (hT.owned n (by simp [rpending])).1 h
  | @rootBad n w _ h => exact key n (hT.owned n (by simp [rpending])).1 h
  | @climbBad n c w _ h =>
    obtain ⟨h1, h2⟩ := hT.pc
    rcases h1 with ⟨h1, _⟩ | ⟨m, rfl, _, hm, _⟩
    · omega
    · exact key m hm (by simpa using h)
  | @storeBad n v w _ h => exact key n (hT.owned n (by simp [rpending])).1 h

theorem resolve_step (hi : Initialised s cap μ) (hz : NoZero s) {t : Fin G} {l l' : RState}
    {lab lab' : Buf Int} (hI : RInv s μ lab) (hT : RAssert s cap μ G t l lab)
    (h : ResolveStep cap l lab (.ok (l', lab'))) :
    RInv s μ lab' ∧ RAssert s cap μ G t l' lab' ∧
      ∀ n : Nat, n % G ≠ t → lab' n = lab n := by
  have hown := hT.owned
  have hfin := hT.fin
  have hroom := hi.room
  cases h with
  | @keep n w _ c h hc =>
    simp only [rpending] at hown hfin
    refine ⟨hI, rassert_next (fun m hm => hown m (by simp [hm])) fun m h1 h2 h3 => ?_,
      fun _ _ => rfl⟩
    by_cases he : m = n
    · subst he
      refine ⟨c, h, ?_⟩
      rcases hI.res hi hz h1 h with ⟨_, h⟩ | ⟨k, rfl, hk, _⟩
      · exact h
      · exact absurd ⟨by omega, by omega⟩ hc
    · exact hfin m h1 h2 (by simp [he, h3])
  | pointer h hc => exact ⟨hI, ⟨hown, trivial, hfin⟩, fun _ _ => rfl⟩
  | @root n w _ c h =>
    simp only [rpending] at hown hfin
    have hn := hown n (by simp)
    exact ⟨hI, ⟨by rw [rpending_after]; exact hown, rpc_after hi (hI.res hi hz hn.1 h),
      by rw [rpending_after]; exact hfin⟩, fun _ _ => rfl⟩
  | @climb n c w _ c' h =>
    simp only [rpending] at hown hfin
    refine ⟨hI, ⟨by rw [rpending_after]; exact hown, rpc_after hi ?_,
      by rw [rpending_after]; exact hfin⟩, fun _ _ => rfl⟩
    obtain ⟨h1, h2⟩ := hT.pc
    rcases h1 with ⟨h1, _⟩ | ⟨m, rfl, _, hm, himp⟩
    · omega
    · rw [add_sub_cancel_left] at h
      rcases hI.res hi hz hm h with ⟨h3, h4⟩ | ⟨m', e, hm', hlt, himp'⟩
      · exact .inl ⟨h3, himp _ h4⟩
      · exact .inr ⟨m', e, hm', hlt, fun v hv => himp v (himp' v hv)⟩
  | @store n v w _ c h =>
    simp only [rpending] at hown hfin
    have hn := hown n (by simp)
    have hf : Final s μ n v := hT.pc
    refine ⟨fun m hm => ?_, rassert_next (fun m hm => hown m (by simp [hm])) fun m h1 h2 h3 => ?_,
      fun m hm => ?_⟩
    · by_cases he : m = n
      · subst he; exact ⟨v, if_pos rfl, .inr hf⟩
      · obtain ⟨c', hc', h1⟩ := hI m hm
        exact ⟨c', (if_neg (by exact_mod_cast he)).trans hc', h1⟩
    · by_cases he : m = n
      · subst he; exact ⟨v, if_pos rfl, hf⟩
      · obtain ⟨v', hv', h4⟩ := hfin m h1 h2 (by simp [he, h3])
        exact ⟨v', (if_neg (by exact_mod_cast he)).trans hv', h4⟩
    · have : m ≠ n := fun e => hm (e ▸ hn.2)
      exact if_neg (by exact_mod_cast this)

theorem resolve_stable {t u : Fin G} (htu : t ≠ u) {l : RState} {lab lab' : Buf Int}
    (hG : ∀ n : Nat, n % G ≠ t → lab' n = lab n) (h : RAssert s cap μ G u l lab) :
    RAssert s cap μ G u l lab' := by
  refine ⟨h.owned, h.pc, fun n h1 h2 h3 => ?_⟩
  have hne : n % G ≠ t := fun e => htu (Fin.ext (e.symm.trans h2))
  rw [hG n hne]
  exact h.fin n h1 h2 h3

theorem resolve_start (hG : 0 < G) (hi : Initialised s cap μ) :
    RInv s μ μ.labels ∧
      ∀ t : Fin G, RAssert s cap μ G t (resolveThreads s G t) μ.labels := by
  refine ⟨fun n hn => ?_, fun t => rassert_next ?_ ?_⟩
  · cases hc : classify s (cellAt s.grid n) with
    | skip => exact ⟨0, hi.skip n hn hc, .inl (hi.skip n hn hc)⟩
    | peak =>
      obtain ⟨k, hk⟩ := List.mem_iff_getElem?.1 ((hi.mem n).2 ⟨hn, hc⟩)
      exact ⟨_, hi.peak k n hk, .inl (hi.peak k n hk)⟩
    | toward m => exact ⟨_, hi.toward n m hn hc, .inl (hi.toward n m hn hc)⟩
  · intro n hn
    exact ⟨((mem_gridStride hG).1 hn).1, (gridStride_owner hG t.2 hn).symm⟩
  · intro n h1 h2 h3
    exact absurd (h2 ▸ mem_gridStride_mod hG h1) h3

theorem resolve_reach (hG : 0 < G) (hi : Initialised s cap μ) (hz : NoZero s)
    {o : Outcome ((Fin G → RState) × Buf Int)}
    (h : Exec (ResolveStep cap) (resolveThreads s G) μ.labels o) :
    ∃ ls lab, o = .ok (ls, lab) ∧ RInv s μ lab ∧ ∀ t, RAssert s cap μ G t (ls t) lab :=
  h.rely (I := RInv s μ) (T := RAssert s cap μ G)
    (G := fun t lab lab' => ∀ n : Nat, n % G ≠ t → lab' n = lab n)
    (fun _ _ _ _ _ hI hT hk => resolve_step hi hz hI hT hk)
    (fun _ _ _ hI hT => resolve_safe hI hi hT)
    (fun _ _ _ _ _ hne _ _ hG hT => resolve_stable hne hG hT)
    (resolve_start hG hi).1 (resolve_start hG hi).2

theorem returned_resolve {l : RState} (h : Returned (ResolveStep cap) l) : l = .done := by
  cases l with
  | done => rfl
  | test n w => exact absurd (ResolveStep.testBad rfl) (h (fun _ => none) .ub)
  | root n w => exact absurd (ResolveStep.rootBad rfl) (h (fun _ => none) .ub)
  | climb n c w => exact absurd (ResolveStep.climbBad rfl) (h (fun _ => none) .ub)
  | store n v w => exact absurd (ResolveStep.storeBad rfl) (h (fun _ => none) .ub)

/-- Every complete execution of the second kernel leaves the final labels. -/
theorem resolve_result (hG : 0 < G) (hi : Initialised s cap μ) (hz : NoZero s) {lab : Buf Int}
    (h : Completes (ResolveStep cap) (resolveThreads s G) μ.labels lab) :
    ∀ n : Nat, n < numel s → ∃ v, lab n = some v ∧ Final s μ n v := by
  obtain ⟨ls, hE, hret⟩ := h
  obtain ⟨ls', lab', he, hI, hT⟩ := resolve_reach hG hi hz hE
  cases he
  intro n hn
  have := (hT ⟨n % G, Nat.mod_lt _ hG⟩).fin n hn rfl
  rw [returned_resolve (hret _)] at this
  exact this (by simp [rpending])

/-- With a neighbour distance of at least 2, no cell points to position 0. -/
theorem toward_pos (hd : 2 ≤ s.dist) : NoZero s := by
  intro x m h h0
  obtain ⟨_, hall, y, hy, e, _⟩ := classify_toward h
  have hyb := hall y hy
  -- the extreme neighbours lie in the plane
  have h1 := hall (x.1 - s.dist, x.2) (mem_hood.2 (mem_l1Offsets.2 (by simp; omega)))
  have h2 := hall (x.1, x.2 - (s.dist - 1)) (mem_hood.2 (mem_l1Offsets.2 (by
    simp only [sub_self]
    have : |x.2 - (s.dist - 1) - x.2| = s.dist - 1 := by
      rw [show x.2 - (s.dist - 1) - x.2 = -(s.dist - 1) by ring, abs_neg, abs_of_nonneg (by omega)]
    rw [this]; omega)))
  have hyo := mem_l1Offsets.1 (mem_hood.1 hy)
  have hlin : y.1 * s.grid.chans + y.2 = 0 := by rw [h0] at e; simpa [lin] using e.symm
  have hy1 : 0 ≤ y.1 * (s.grid.chans : Int) := mul_nonneg hyb.1 (by omega)
  have hy2 : y.2 = 0 := by have := hyb.2.2.1; omega
  have hch : (0 : Int) < s.grid.chans := by have := hyb.2.2; omega
  have hy1' : y.1 = 0 := by
    have h : y.1 * (s.grid.chans : Int) = 0 := by omega
    rcases mul_eq_zero.1 h with h | h
    · exact h
    · omega
  have hx1 : s.dist ≤ x.1 := by have := h1.1; simp only at this; omega
  have hx2 : s.dist - 1 ≤ x.2 := by have := h2.2.2.1; simp only at this; omega
  have habs : |y.2 - x.2| = x.2 := by
    rw [hy2, zero_sub, abs_neg, abs_of_nonneg (by omega)]
  simp only at hyo
  rw [habs] at hyo
  omega

end Kernel
end
end Bliss.Gpu
