import Verif.Gpu.Resolve
import Verif.Gpu.MergeTerm

/-!
# The kernels of the GPU component search finish
-/

namespace Bliss.Gpu

open Bliss.Comp

/-- A measure of each thread that its own steps decrease gives a measure of the launch. -/
theorem sum_measure {ι L σ : Type} [DecidableEq ι] [Fintype ι] {K : Kernel L σ}
    (J : (ι → L) × σ → Prop) (m : L → Nat)
    (hJ : ∀ x y, J x → SysStep K x y → J y)
    (hm : ∀ x i l' s', J x → K (x.1 i) x.2 (.ok (l', s')) → m l' < m (x.1 i)) :
    ∀ x y, J x → SysStep K x y → J y ∧ ∑ i, m (y.1 i) < ∑ i, m (x.1 i) := by
  intro x y hx hxy
  refine ⟨hJ x y hx hxy, ?_⟩
  obtain ⟨i, l', hk, he⟩ := hxy
  rw [he]
  have h := hm x i l' y.2 hx hk
  refine Finset.sum_lt_sum (fun j _ => ?_) ⟨i, Finset.mem_univ i, by simpa using h⟩
  by_cases hj : j = i
  · subst hj; simpa using h.le
  · simp [Function.update_of_ne hj]

/-- A launch whose steps decrease a measure, and whose unfinished threads can step without
undefined behaviour, has a complete execution. -/
theorem completes_of_measure {ι L σ : Type} [DecidableEq ι] {K : Kernel L σ} {ls : ι → L} {s : σ}
    (J : (ι → L) × σ → Prop) (μ : (ι → L) × σ → Nat) (h0 : J (ls, s))
    (hstep : ∀ x y, J x → SysStep K x y → J y ∧ μ y < μ x)
    (hsafe : ∀ x i, J x → ¬ K (x.1 i) x.2 .ub)
    (hprog : ∀ x i, J x → Returned K (x.1 i) ∨ ∃ r, K (x.1 i) x.2 r)
    (hthrow : ∀ l s e, ¬ K l s (.throws e)) : ∃ s', Completes K ls s s' := by
  refine exists_complete (fun ls s => J (ls, s)) (fun ls s => μ (ls, s)) ?_ ?_ ls s h0
  · intro ls s i l' s' hJ hk
    exact hstep (ls, s) _ hJ ⟨i, l', hk, rfl⟩
  · intro ls s i hJ
    rcases hprog (ls, s) i hJ with h | ⟨r, h⟩
    · exact .inl h
    · cases r with
      | ok a => obtain ⟨l', s'⟩ := a; exact .inr ⟨l', s', h⟩
      | throws e => exact absurd h (hthrow _ _ _)
      | ub => exact absurd h (hsafe (ls, s) i hJ)

/-- A launch whose steps decrease a measure, and whose unfinished threads can step, has a complete
execution or one with undefined behaviour. -/
theorem completes_or_faults {ι L σ : Type} [DecidableEq ι] {K : Kernel L σ}
    (J : (ι → L) × σ → Prop) (μ : (ι → L) × σ → Nat)
    (hstep : ∀ x y, J x → SysStep K x y → J y ∧ μ y < μ x)
    (hprog : ∀ x i, J x → Returned K (x.1 i) ∨ ∃ r, K (x.1 i) x.2 r)
    (hthrow : ∀ l s e, ¬ K l s (.throws e)) (ls : ι → L) (s : σ) (h0 : J (ls, s)) :
    (∃ s', Completes K ls s s') ∨ Exec K ls s .ub := by
  induction hn : μ (ls, s) using Nat.strong_induction_on generalizing ls s with
  | _ n ih =>
    by_cases hall : ∀ i, Returned K (ls i)
    · exact .inl ⟨s, ls, .stop ls s, hall⟩
    · push Not at hall
      obtain ⟨i, hi⟩ := hall
      obtain h | ⟨r, h⟩ := hprog (ls, s) i h0
      · exact absurd h hi
      · cases r with
        | ok a =>
          obtain ⟨l', s'⟩ := a
          obtain ⟨h1, h2⟩ := hstep (ls, s) (Function.update ls i l', s') h0 ⟨i, l', h, rfl⟩
          rcases ih _ (hn ▸ h2) _ _ h1 rfl with ⟨s'', ls'', h3, h4⟩ | h3
          · exact .inl ⟨s'', ls'', .step i h h3, h4⟩
          · exact .inr (.step i h h3)
        | throws e => exact absurd h (hthrow _ _ _)
        | ub => exact .inr (.fault i h)

section
variable {F : Type} [Sub F] [Div F] [LinearOrder F] [OfNat F 0] [OfNat F 2]
variable {s : Search F} {cap : Int} {G : Nat} {μ : InitMem F}

/-- Invariant of the first kernel for a whole launch. -/
def IAll (s : Search F) (cap : Int) (G : Nat) (x : (Fin G → IState) × InitMem F) : Prop :=
  IInv s cap x.2 ∧ ∀ t, IAssert s cap G t (x.1 t) x.2

theorem iall_step (x y : (Fin G → IState) × InitMem F)
    (hx : IAll s cap G x) (h : SysStep (InitStep s cap) x y) : IAll s cap G y := by
  obtain ⟨i, l', hk, he⟩ := h
  obtain ⟨h1, h2, h3⟩ := init_step hx.1 (hx.2 i) hk
  refine ⟨h1, fun j => ?_⟩
  rw [he]
  by_cases hj : j = i
  · subst hj; simpa using h2
  · rw [Function.update_of_ne hj]
    exact init_stable (Ne.symm hj) h3 (hx.2 j)

/-- Steps a thread of the first kernel still has at most. -/
def imeas : IState → Nat
  | .done => 0
  | .claim _ w => 3 * w.length + 3
  | .fill _ _ w => 3 * w.length + 2
  | .label _ _ w => 3 * w.length + 1
  | .point _ _ w => 3 * w.length + 1

theorem imeas_next (w : List Nat) : imeas (inext s w) ≤ 3 * w.length := by
  induction w with
  | nil => simp [inext, imeas]
  | cons n w ih =>
    unfold inext
    split
    · simp; omega
    · simp [imeas]; omega
    · simp [imeas]; omega

theorem init_measure : ∀ x y, IAll s cap G x → SysStep (InitStep s cap) x y →
    IAll s cap G y ∧ ∑ i, imeas (y.1 i) < ∑ i, imeas (x.1 i) :=
  sum_measure _ imeas iall_step fun x i l' s' _ hk => by
    generalize x.1 i = l at hk
    cases hk with
    | claim => simp [imeas]
    | fill => simp [imeas]
    | label => have := imeas_next (s := s); simp only [imeas]; exact Nat.lt_succ_of_le (this _)
    | point => have := imeas_next (s := s); simp only [imeas]; exact Nat.lt_succ_of_le (this _)

theorem init_terminates (hG : 0 < G) :
    Terminates (InitStep s cap) (initThreads s G) (initMem s cap) :=
  terminates_of_measure (IAll s cap G) _ (init_start hG) init_measure

theorem init_progress (x : (Fin G → IState) × InitMem F) (i : Fin G) :
    Returned (InitStep s cap) (x.1 i) ∨ ∃ r, InitStep s cap (x.1 i) x.2 r := by
  cases hl : x.1 i with
  | done => exact .inl fun s r h => by cases h
  | claim n w => exact .inr ⟨_, .claim⟩
  | fill n id w =>
    cases h : x.2.slots id with
    | none => exact .inr ⟨_, .fillBad h⟩
    | some a => exact .inr ⟨_, .fill h⟩
  | label n id w =>
    cases h : x.2.labels n with
    | none => exact .inr ⟨_, .labelBad h⟩
    | some a => exact .inr ⟨_, .label h⟩
  | point n m w =>
    cases h : x.2.labels n with
    | none => exact .inr ⟨_, .pointBad h⟩
    | some a => exact .inr ⟨_, .point h⟩

theorem init_completes (hG : 0 < G) (hroom : Roomy s cap) :
    ∃ μ, Completes (InitStep s cap) (initThreads s G) (initMem s cap) μ :=
  completes_of_measure (IAll s cap G) _ (init_start hG) init_measure
    (fun x i hx => init_safe hroom hx.1 (hx.2 i)) (fun x i _ => init_progress x i)
    (fun l s e h => by cases h)

/-- With a peak and without room for the peaks, the first kernel cannot complete and has
undefined behaviour in some execution. -/
theorem init_overflow (hG : 0 < G) (hp : ∃ n, n < numel s ∧ classify s (cellAt s.grid n) = .peak)
    (hroom : ¬ Roomy s cap) :
    (¬ ∃ μ, Completes (InitStep s cap) (initThreads s G) (initMem s cap) μ) ∧
      Exec (InitStep s cap) (initThreads s G) (initMem s cap) .ub := by
  have h1 : ¬ ∃ μ, Completes (InitStep s cap) (initThreads s G) (initMem s cap) μ :=
    fun ⟨μ, h⟩ => hroom (init_room hG h hp)
  exact ⟨h1, (completes_or_faults (IAll s cap G) _ init_measure (fun x i _ => init_progress x i)
    (fun l s e h => by cases h) _ _ (init_start hG)).resolve_left h1⟩

/-! ## Resolve -/

/-- Invariant of the second kernel for a whole launch. -/
def RAll (s : Search F) (cap : Int) (μ : InitMem F) (G : Nat) (x : (Fin G → RState) × Buf Int) :
    Prop := RInv s μ x.2 ∧ ∀ t, RAssert s cap μ G t (x.1 t) x.2

theorem rall_step (hi : Initialised s cap μ) (hz : NoZero s) (x y : (Fin G → RState) × Buf Int)
    (hx : RAll s cap μ G x) (h : SysStep (ResolveStep cap) x y) : RAll s cap μ G y := by
  obtain ⟨ls', s', he, h1, h2⟩ := h.exec.rely (I := RInv s μ) (T := RAssert s cap μ G)
    (G := fun t lab lab' => ∀ n : Nat, n % G ≠ t → lab' n = lab n)
    (fun _ _ _ _ _ hI hT hk => resolve_step hi hz hI hT hk)
    (fun _ _ _ hI hT => resolve_safe hI hi hT)
    (fun _ _ _ _ _ hne _ _ hG hT => resolve_stable hne hG hT) hx.1 hx.2
  cases he
  exact ⟨h1, h2⟩

/-- Number of cells stronger than the cell at position `m`. -/
def above (s : Search F) (m : Nat) : Nat :=
  ((List.range (numel s)).filter fun n =>
    decide (s.snr (cellAt s.grid m) < s.snr (cellAt s.grid n))).length

theorem above_le (m : Nat) : above s m ≤ numel s := by
  have := List.length_filter_le (fun n => decide (s.snr (cellAt s.grid m) < s.snr (cellAt s.grid n)))
    (List.range (numel s))
  simpa [above] using this

theorem above_lt {m m' : Nat} (hm' : m' < numel s)
    (h : s.snr (cellAt s.grid m) < s.snr (cellAt s.grid m')) : above s m' < above s m := by
  classical
  unfold above
  rw [← List.toFinset_card_of_nodup (List.nodup_range.filter _),
    ← List.toFinset_card_of_nodup (List.nodup_range.filter _)]
  refine Finset.card_lt_card ⟨fun k hk => ?_, fun hsub => ?_⟩
  · simp only [List.mem_toFinset, List.mem_filter, List.mem_range, decide_eq_true_eq] at hk ⊢
    exact ⟨hk.1, h.trans hk.2⟩
  · have : m' ∈ ((List.range (numel s)).filter fun n =>
        decide (s.snr (cellAt s.grid m) < s.snr (cellAt s.grid n))).toFinset := by
      simp [hm', h]
    have := hsub this
    simp at this

/-- Steps a thread of the second kernel still has at most. -/
def rmeas (s : Search F) (cap : Int) : RState → Nat
  | .done => 0
  | .test _ w => (numel s + 5) * w.length + numel s + 4
  | .root _ w => (numel s + 5) * w.length + numel s + 3
  | .climb _ c w => (numel s + 5) * w.length + above s (c - cap).toNat + 2
  | .store _ _ w => (numel s + 5) * w.length + 1

theorem rmeas_next (w : List Nat) : rmeas s cap (rnext w) ≤ (numel s + 5) * w.length := by
  cases w with
  | nil => simp [rnext, rmeas]
  | cons n w => simp [rnext, rmeas, Nat.mul_add]; omega

theorem resolve_measure (hi : Initialised s cap μ) (hz : NoZero s) :
    ∀ x y, RAll s cap μ G x → SysStep (ResolveStep cap) x y →
      RAll s cap μ G y ∧ ∑ i, rmeas s cap (y.1 i) < ∑ i, rmeas s cap (x.1 i) :=
  sum_measure _ (rmeas s cap) (rall_step hi hz) fun x i l' s' hx hk => by
    have hT := hx.2 i
    have hI := hx.1
    generalize x.1 i = l at hk hT
    cases hk with
    | @keep n w _ c h hc =>
      have := rmeas_next (s := s) (cap := cap) w
      simp only [rmeas] at this ⊢; omega
    | pointer h hc => simp only [rmeas]; omega
    | @root n w _ c h =>
      unfold rafter
      split
      · have := above_le (s := s) (c - cap).toNat
        simp only [rmeas]; omega
      · simp only [rmeas]; omega
    | @climb n c w _ c' h =>
      unfold rafter
      split
      · rename_i hlt
        obtain ⟨h1, h2⟩ := hT.pc
        rcases h1 with ⟨h1, _⟩ | ⟨m, rfl, _, hm, _⟩
        · omega
        · rw [add_sub_cancel_left] at h
          obtain ⟨c'', hc'', h3⟩ := hI m hm
          rw [h] at hc''
          obtain rfl := Option.some.inj hc''
          rcases h3 with h3 | h3
          · -- the label left by the first kernel
            cases hc : classify s (cellAt s.grid m) with
            | skip =>
              have := hi.skip m hm hc
              rw [h3] at this
              obtain rfl := Option.some.inj this
              have := hi.room; omega
            | peak =>
              obtain ⟨k, hk⟩ := List.mem_iff_getElem?.1 ((hi.mem m).2 ⟨hm, hc⟩)
              have := hi.peak k m hk
              rw [h3] at this
              obtain rfl := Option.some.inj this
              have := hi.room
              have : k < μ.claims.length := (List.getElem?_eq_some_iff.1 hk).1
              omega
            | toward m' =>
              have := hi.toward m m' hm hc
              rw [h3] at this
              obtain rfl := Option.some.inj this
              obtain ⟨k, rfl, hk, hlt', _⟩ := toward_cell hc
              have := above_lt (s := s) hk hlt'
              simp only [rmeas, add_sub_cancel_left, Int.toNat_natCast]
              omega
          · have := (h3.lt hi).2; omega
      · simp only [rmeas]; omega
    | @store n v w _ c h =>
      have := rmeas_next (s := s) (cap := cap) w
      simp only [rmeas] at this ⊢; omega

theorem resolve_terminates (hG : 0 < G) (hi : Initialised s cap μ) (hz : NoZero s) :
    Terminates (ResolveStep cap) (resolveThreads s G) μ.labels :=
  terminates_of_measure (RAll s cap μ G) _ (resolve_start hG hi) (resolve_measure hi hz)

theorem resolve_completes (hG : 0 < G) (hi : Initialised s cap μ) (hz : NoZero s) :
    ∃ lab, Completes (ResolveStep cap) (resolveThreads s G) μ.labels lab := by
  refine completes_of_measure (RAll s cap μ G) _ (resolve_start hG hi) (resolve_measure hi hz)
    (fun x i hx => resolve_safe hx.1 hi (hx.2 i)) (fun x i hx => ?_) (fun l s e h => by cases h)
  cases hl : x.1 i with
  | done => exact .inl fun s r h => by cases h
  | test n w =>
    cases h : x.2 n with
    | none => exact .inr ⟨_, .testBad h⟩
    | some c =>
      by_cases hc : 8 ≤ c ∧ cap < c
      · exact .inr ⟨_, .pointer h hc⟩
      · exact .inr ⟨_, .keep h hc⟩
  | root n w =>
    cases h : x.2 n with
    | none => exact .inr ⟨_, .rootBad h⟩
    | some c => exact .inr ⟨_, .root h⟩
  | climb n c w =>
    cases h : x.2 (c - cap) with
    | none => exact .inr ⟨_, .climbBad h⟩
    | some c' => exact .inr ⟨_, .climb h⟩
  | store n v w =>
    cases h : x.2 n with
    | none => exact .inr ⟨_, .storeBad h⟩
    | some c => exact .inr ⟨_, .store h⟩

/-! ## Merge -/

omit [Sub F] [Div F] [OfNat F 0] [OfNat F 2] in
/-- Coherent reads are one of the behaviours of stale reads. -/
theorem MergeStep.weaken {l : MState} {m : Buf (Slot F)} {r : Outcome (MState × Buf (Slot F))}
    (stale : Bool) (h : MergeStep false l m r) : MergeStep stale l m r := by
  cases h with
  | chaseRoot h h0 => exact .chaseRoot h (.inr (h0.resolve_left (by simp)))
  | chaseUp h h0 => exact .chaseUp h h0
  | chaseTo h => exact .chaseTo h
  | pixRoot h h0 => exact .pixRoot h (.inr (h0.resolve_left (by simp)))
  | pixUp h h0 => exact .pixUp h h0
  | pixTo h => exact .pixTo h
  | nbrSame h h0 he => exact .nbrSame h (.inr (h0.resolve_left (by simp))) he
  | nbrRoot h h0 he => exact .nbrRoot h (.inr (h0.resolve_left (by simp))) he
  | nbrUp h h0 => exact .nbrUp h h0
  | nbrTo h => exact .nbrTo h
  | swapped hp hq hl h0 => exact .swapped hp hq hl h0
  | failed hp hq hl h0 => exact .failed hp hq hl h0
  | chaseBad h => exact .chaseBad h
  | chaseToBad h => exact .chaseToBad h
  | pixBad h => exact .pixBad h
  | pixToBad h => exact .pixToBad h
  | nbrBad h => exact .nbrBad h
  | nbrToBad h => exact .nbrToBad h
  | casBad h => exact .casBad h

omit [Sub F] [Div F] [OfNat F 0] [OfNat F 2] in
theorem merge_completes {V : Int → Prop} {s0 : Buf (Slot F)} {ι : Type} [DecidableEq ι] [Fintype ι]
    {work : ι → List (Int × List Int)} (hr : MergeReady V s0 work) (hfin : {i | V i}.Finite)
    (stale : Bool) : ∃ m, Completes (MergeStep stale) (mergeInit work) s0 m := by
  have hret : ∀ {stale : Bool}, Returned (MergeStep (F := F) stale) .done := by
    intro stale s r h; cases h
  obtain ⟨m, ls, hE, hall⟩ : ∃ m, Completes (MergeStep (F := F) false) (mergeInit work) s0 m := by
    refine completes_of_measure
      (fun x => MInv V s0 (Linked work) x.2 ∧ ∀ i, MAssert V work i (x.1 i) x.2) (mmeas hfin s0)
      (merge_start hr) (fun x y hx hxy => ⟨?_, mmeas_step hr hfin hx.1 hx.2 hxy⟩)
      (fun x i hx => merge_safe hr hx.1 (hx.2 i)) (fun x i hx => ?_) (fun l s e h => by cases h)
    · obtain ⟨ls', s', he, h1, h2⟩ := hxy.exec.rely (I := MInv V s0 (Linked work))
        (T := MAssert V work) (G := fun _ => MGuar V)
        (fun _ _ _ _ _ hI hT hk => merge_step hr hI hT hk)
        (fun _ _ _ hI hT => merge_safe hr hI hT)
        (fun i _ _ _ _ _ _ _ hG hT => merge_stable (i := i) (fun l => set_mono hG l) hG hT) hx.1 hx.2
      cases he
      exact ⟨h1, h2⟩
    · by_cases h : x.1 i = .done
      · rw [h]; exact .inl hret
      · exact .inr (merge_progress x.2 h)
  refine ⟨m, ls, ?_, fun i => by rw [returned_merge (s := m) (hall i)]; exact hret⟩
  clear hall
  generalize mergeInit work = l0 at hE ⊢
  clear hr
  generalize s0 = m0 at hE ⊢
  generalize hr' : (Outcome.ok (ls, m) : Outcome ((ι → MState) × Buf (Slot F))) = r at hE
  induction hE with
  | stop ls' s' => cases hr'; exact .stop _ _
  | step i hk _ ih => exact .step i (hk.weaken stale) (ih hr')
  | fault i hk => cases hr'

end
end Bliss.Gpu
