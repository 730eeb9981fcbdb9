import Verif.Gpu.Finish

/-!
# Kernels that collect records through an atomic counter

A thread of such a kernel looks at its cells one after the other; for a selected cell it takes
the next number from a shared counter and fills the record of that number, field by field.
-/

namespace Bliss.Gpu

/-- Memory: the counter and the records. `claims` is a history variable that the program does not
read: the cells that have taken a number, in that order. -/
structure CMem (A : Type) where
  counter : Int
  slots : Buf A
  claims : List Nat

/-- Where a thread is: about to take a number, or with the stores `ups` to record `id` to do. -/
inductive CState (A : Type)
  | done
  | claim (n : Nat) (ups : List (A → A)) (w : List Nat)
  | fill (n : Nat) (id : Int) (ups : List (A → A)) (w : List Nat)

/-- The loop over the cells of a thread; `sel n` are the stores to make for the cell `n`, if it is
selected. -/
def cnext {A : Type} (sel : Nat → Option (List (A → A))) : List Nat → CState A
  | [] => .done
  | n :: w =>
    match sel n with
    | none => cnext sel w
    | some ups => .claim n ups w

/-- The steps: `atomicAdd` on the counter, and each store to a field of the record. -/
inductive CollectStep {A : Type} (sel : Nat → Option (List (A → A))) : Kernel (CState A) (CMem A)
  | claim {n ups w μ} : CollectStep sel (.claim n ups w) μ
      (.ok (.fill n μ.counter ups w,
        { μ with counter := μ.counter + 1, claims := μ.claims ++ [n] }))
  | fill {n id u ups w μ a} (h : μ.slots id = some a) : CollectStep sel (.fill n id (u :: ups) w) μ
      (.ok (.fill n id ups w, { μ with slots := fun j => if j = id then some (u a) else μ.slots j }))
  | fillBad {n id u ups w μ} (h : μ.slots id = none) :
      CollectStep sel (.fill n id (u :: ups) w) μ .ub
  | next {n id w μ} : CollectStep sel (.fill n id [] w) μ (.ok (cnext sel w, μ))

/-- Memory at the launch: `cap` records `a0`. -/
def collectMem {A : Type} (cap : Int) (a0 : A) : CMem A :=
  { counter := 0, slots := Buf.ofFn cap fun _ => a0, claims := [] }

/-- Where thread `t` of `G` threads starts, for `numel` cells. -/
def collectThreads {A : Type} (sel : Nat → Option (List (A → A))) (numel G : Nat) :
    Fin G → CState A := fun t => cnext sel (gridStride G numel t)

/-- The record after the stores. -/
def build {A : Type} (a0 : A) (ups : List (A → A)) : A := ups.foldl (fun a u => u a) a0

/-- The selected cells. -/
def selected {A : Type} (sel : Nat → Option (List (A → A))) (numel : Nat) : List Nat :=
  (List.range numel).filter fun n => (sel n).isSome

section
variable {A : Type} {sel : Nat → Option (List (A → A))} {numel : Nat} {cap : Int} {a0 : A} {G : Nat}

/-- Memory invariant. -/
structure CInv (sel : Nat → Option (List (A → A))) (numel : Nat) (cap : Int) (a0 : A)
    (μ : CMem A) : Prop where
  counter : μ.counter = μ.claims.length
  nodup : μ.claims.Nodup
  mem : ∀ n ∈ μ.claims, n ∈ selected sel numel
  slots : ∀ i : Int, 0 ≤ i → i < cap → ∃ a, μ.slots i = some a
  outside : ∀ i : Int, i < 0 ∨ cap ≤ i → μ.slots i = none
  fresh : ∀ i : Int, μ.claims.length ≤ i → i < cap → μ.slots i = some a0

/-- Cells a thread has still to finish. -/
def cpending : CState A → List Nat
  | .done => []
  | .claim n _ w | .fill n _ _ w => n :: w

/-- Assertion about the step in progress. -/
def CPc (sel : Nat → Option (List (A → A))) (cap : Int) (a0 : A) (μ : CMem A) : CState A → Prop
  | .done => True
  | .claim n ups w => sel n = some ups ∧ n ∉ μ.claims ∧ ∀ n' ∈ w, n' ∉ μ.claims
  | .fill n id ups w => (∃ (all : List (A → A)) (k : Nat), sel n = some all ∧ id = k ∧
      μ.claims[k]? = some n ∧ (ups = all ∨ id < cap) ∧
      ∀ a, μ.slots id = some a → build a ups = build a0 all) ∧
      ∀ n' ∈ w, n' ∉ μ.claims

/-- What is left for the cell `n`. -/
def CDone (sel : Nat → Option (List (A → A))) (cap : Int) (a0 : A) (μ : CMem A) (n : Nat) : Prop :=
  ∀ ups, sel n = some ups → ∃ k : Nat, μ.claims[k]? = some n ∧ (ups = [] ∨ (k : Int) < cap) ∧
    ∀ a, μ.slots k = some a → a = build a0 ups

/-- Thread assertion. -/
structure CAssert (sel : Nat → Option (List (A → A))) (numel : Nat) (cap : Int) (a0 : A) (G : Nat)
    (t : Fin G) (l : CState A) (μ : CMem A) : Prop where
  owned : ∀ n ∈ cpending l, n < numel ∧ n % G = t
  nodup : (cpending l).Nodup
  pc : CPc sel cap a0 μ l
  fin : ∀ n, n < numel → n % G = t → n ∉ cpending l → CDone sel cap a0 μ n

/-- What a step of thread `t` may change. -/
structure CGuar (G : Nat) (t : Fin G) (μ μ' : CMem A) : Prop where
  claims : μ'.claims = μ.claims ∨ ∃ n, n % G = t ∧ μ'.claims = μ.claims ++ [n]
  slots : ∀ (k : Nat) (n : Nat), μ.claims[k]? = some n → n % G ≠ t → μ'.slots k = μ.slots k

theorem CGuar.keep {t : Fin G} {μ μ' : CMem A} (h : CGuar G t μ μ') {k n : Nat}
    (h1 : μ.claims[k]? = some n) : μ'.claims[k]? = some n := by
  rcases h.claims with e | ⟨m, _, e⟩ <;> rw [e]
  · exact h1
  · rw [List.getElem?_append_left]
    · exact h1
    · exact (List.getElem?_eq_some_iff.1 h1).1

theorem cpending_next (w : List Nat) : (cpending (cnext sel w)).Sublist w := by
  induction w with
  | nil => exact .slnil
  | cons n w ih =>
    unfold cnext
    split
    · exact ih.cons _
    · exact List.Sublist.refl _

theorem cassert_next {t : Fin G} {μ : CMem A} {w : List Nat}
    (hown : ∀ n ∈ w, n < numel ∧ n % G = t) (hnd : w.Nodup) (h : ∀ n' ∈ w, n' ∉ μ.claims)
    (hfin : ∀ n, n < numel → n % G = t → n ∉ w → CDone sel cap a0 μ n) :
    CAssert sel numel cap a0 G t (cnext sel w) μ where
  owned n hn := hown n ((cpending_next w).subset hn)
  nodup := (cpending_next w).nodup hnd
  pc := by
    clear hown hnd hfin
    induction w with
    | nil => trivial
    | cons n w ih =>
      have hw : ∀ n' ∈ w, n' ∉ μ.claims := fun n' h' => h n' (by simp [h'])
      unfold cnext
      split
      · exact ih hw
      · rename_i ups hc; exact ⟨hc, h n (by simp), hw⟩
  fin n h1 h2 h3 := by
    by_cases hw : n ∈ w
    · clear hown hnd h hfin
      induction w with
      | nil => simp at hw
      | cons m w ih =>
        unfold cnext at h3
        split at h3
        · rename_i hc
          rcases List.mem_cons.1 hw with rfl | hw
          · intro ups he; rw [hc] at he; cases he
          · exact ih h3 hw
        · simp only [cpending] at h3; exact absurd hw h3
    · exact hfin n h1 h2 hw

/-- Capacity suffices. -/
def Fitting (sel : Nat → Option (List (A → A))) (numel : Nat) (cap : Int) : Prop :=
  ((selected sel numel).length : Int) ≤ cap

theorem cclaims_le {μ : CMem A} (hI : CInv sel numel cap a0 μ) :
    μ.claims.length ≤ (selected sel numel).length :=
  (List.subperm_of_subset hI.nodup fun _ hn => hI.mem _ hn).length_le

theorem collect_safe (hroom : Fitting sel numel cap) {t : Fin G} {l : CState A} {μ : CMem A}
    (hI : CInv sel numel cap a0 μ) (hT : CAssert sel numel cap a0 G t l μ) :
    ¬ CollectStep sel l μ .ub := by
  intro h
  have hle := cclaims_le hI
  unfold Fitting at hroom
  cases h with
  | @fillBad n id u ups w _ h =>
    obtain ⟨⟨all, k, _, rfl, hk, _⟩, _⟩ := hT.pc
    have hk' : k < μ.claims.length := (List.getElem?_eq_some_iff.1 hk).1
    obtain ⟨a, ha⟩ := hI.slots k (by omega) (by omega)
    rw [ha] at h; cases h

theorem collect_stable {t u : Fin G} (htu : t ≠ u) {l : CState A} {μ μ' : CMem A}
    (hG : CGuar G t μ μ') (h : CAssert sel numel cap a0 G u l μ) :
    CAssert sel numel cap a0 G u l μ' := by
  have hne : ∀ n, n % G = u → n % G ≠ t := fun n hn h => htu (Fin.ext (h.symm.trans hn))
  have hnot : ∀ n, n % G = u → n ∉ μ.claims → n ∉ μ'.claims := by
    intro n hn hm
    rcases hG.claims with e | ⟨m, hm', e⟩ <;> rw [e]
    · exact hm
    · simp only [List.mem_append, List.mem_singleton, not_or]
      exact ⟨hm, fun e => hne n hn (e ▸ hm')⟩
  refine ⟨h.owned, h.nodup, ?_, fun n h1 h2 h3 ups he => ?_⟩
  · have hpc := h.pc
    have hown := h.owned
    cases l with
    | done => trivial
    | claim n ups w =>
      exact ⟨hpc.1, hnot n (hown n (by simp [cpending])).2 hpc.2.1, fun n' h' =>
        hnot n' (hown n' (by simp [cpending, h'])).2 (hpc.2.2 n' h')⟩
    | fill n id ups w =>
      obtain ⟨⟨all, k, h1, rfl, h3, h4, h5⟩, hrest⟩ := hpc
      refine ⟨⟨all, k, h1, rfl, hG.keep h3, h4, ?_⟩, fun n' h' =>
        hnot n' (hown n' (by simp [cpending, h'])).2 (hrest n' h')⟩
      rw [hG.slots k n h3 (hne n (hown n (by simp [cpending])).2)]
      exact h5
  · obtain ⟨k, e1, e2, e3⟩ := h.fin n h1 h2 h3 ups he
    refine ⟨k, hG.keep e1, e2, ?_⟩
    rw [hG.slots k n e1 (hne n h2)]
    exact e3

theorem collect_step {t : Fin G} {l l' : CState A} {μ μ' : CMem A}
    (hI : CInv sel numel cap a0 μ) (hT : CAssert sel numel cap a0 G t l μ)
    (h : CollectStep sel l μ (.ok (l', μ'))) :
    CInv sel numel cap a0 μ' ∧ CAssert sel numel cap a0 G t l' μ' ∧ CGuar G t μ μ' := by
  have hpc := hT.pc
  have hown := hT.owned
  have hnd := hT.nodup
  have hfin := hT.fin
  cases h with
  | @claim n ups w _ =>
    simp only [cpending] at hown hnd hfin
    have hn := hown n (by simp)
    have hnw : n ∉ w := (List.nodup_cons.1 hnd).1
    have hG : CGuar G t μ { μ with counter := μ.counter + 1, claims := μ.claims ++ [n] } :=
      ⟨.inr ⟨n, hn.2, rfl⟩, fun _ _ _ _ => rfl⟩
    refine ⟨⟨by simp [hI.counter], ?_, ?_, hI.slots, hI.outside, ?_⟩, ⟨hown, hnd, ?_, ?_⟩, hG⟩
    · rw [List.nodup_append]
      refine ⟨hI.nodup, by simp, ?_⟩
      intro a ha b hb
      rw [List.mem_singleton] at hb
      subst hb
      exact fun e => hpc.2.1 (e ▸ ha)
    · intro m hm
      rcases List.mem_append.1 hm with hm | hm
      · exact hI.mem m hm
      · rw [List.mem_singleton] at hm; subst hm
        simp [selected, hn.1, hpc.1]
    · intro i h1 h2
      refine hI.fresh i ?_ h2
      simp only [List.length_append, List.length_singleton] at h1
      omega
    · refine ⟨⟨ups, μ.claims.length, hpc.1, hI.counter, by simp, .inl rfl, fun a ha => ?_⟩,
        fun n' h' => ?_⟩
      · by_cases hlt : (μ.claims.length : Int) < cap
        · have := hI.fresh μ.claims.length (le_refl _) hlt
          rw [hI.counter] at ha
          rw [show μ.slots _ = _ from this] at ha
          cases ha; rfl
        · have := hI.outside μ.claims.length (.inr (by omega))
          rw [hI.counter] at ha
          rw [show μ.slots _ = _ from this] at ha
          cases ha
      · simp only [List.mem_append, List.mem_singleton, not_or]
        exact ⟨hpc.2.2 n' h', fun e => hnw (e ▸ h')⟩
    · intro m h1 h2 h3 ups' he
      obtain ⟨k, e1, e2, e3⟩ := hfin m h1 h2 h3 ups' he
      exact ⟨k, hG.keep e1, e2, e3⟩
  | @fill n id u ups w _ a h =>
    simp only [cpending] at hown hnd hfin
    obtain ⟨⟨all, k, hs, rfl, hk, hor, hb⟩, hrest⟩ := hpc
    have hn := hown n (by simp)
    have hklt : (k : Int) < cap := by
      by_contra hge
      rw [hI.outside k (.inr (by omega))] at h; cases h
    have huniq : ∀ (k' n' : Nat), μ.claims[k']? = some n' → n' ≠ n → (k' : Int) ≠ k := by
      intro k' n' h' hne e
      have : k' = k := by omega
      subst this
      rw [hk] at h'
      exact hne (Option.some.inj h').symm
    refine ⟨⟨hI.counter, hI.nodup, hI.mem, ?_, ?_, ?_⟩,
      ⟨hown, hnd, ⟨⟨all, k, hs, rfl, hk, .inr hklt, fun a' ha' => ?_⟩, hrest⟩, ?_⟩,
      ⟨.inl rfl, fun k' n' h' hne => ?_⟩⟩
    · intro i h1 h2
      obtain ⟨a', ha'⟩ := hI.slots i h1 h2
      by_cases hi : i = k
      · subst hi; exact ⟨_, if_pos rfl⟩
      · exact ⟨a', (if_neg hi).trans ha'⟩
    · intro i hi
      have : i ≠ k := by omega
      exact (if_neg this).trans (hI.outside i hi)
    · intro i h1 h2
      have : i ≠ k := by
        have := (List.getElem?_eq_some_iff.1 hk).1
        simp only at h1
        omega
      exact (if_neg this).trans (hI.fresh i h1 h2)
    · simp only [if_true, Option.some.injEq] at ha'
      subst ha'
      exact hb a h
    · intro m h1 h2 h3 ups' he
      have hmn : m ≠ n := fun e => h3 (by simp [e, cpending])
      obtain ⟨k', e1, e2, e3⟩ := hfin m h1 h2 h3 ups' he
      refine ⟨k', e1, e2, ?_⟩
      simp only [if_neg (huniq k' m e1 hmn)]
      exact e3
    · have : n' ≠ n := fun e => hne (e ▸ hn.2)
      exact if_neg (huniq k' n' h' this)
  | @next n id w _ =>
    simp only [cpending] at hown hnd hfin
    obtain ⟨⟨all, k, hs, rfl, hk, hor, hb⟩, hrest⟩ := hpc
    have hn := hown n (by simp)
    refine ⟨hI, cassert_next (fun m hm => hown m (by simp [hm])) (List.nodup_cons.1 hnd).2
      hrest (fun m h1 h2 h3 => ?_), ⟨.inl rfl, fun _ _ _ _ => rfl⟩⟩
    by_cases he : m = n
    · subst he
      intro ups hu
      rw [hs] at hu
      cases hu
      exact ⟨k, hk, hor.imp Eq.symm id, hb⟩
    · exact hfin m h1 h2 (by simp [he, h3])

theorem collect_start (hG : 0 < G) : CInv sel numel cap a0 (collectMem cap a0) ∧
    ∀ t : Fin G, CAssert sel numel cap a0 G t (collectThreads sel numel G t)
      (collectMem cap a0) := by
  refine ⟨⟨by simp [collectMem], by simp [collectMem], by simp [collectMem], ?_, ?_, ?_⟩,
    fun t => cassert_next ?_ (gridStride_nodup hG) ?_ ?_⟩
  · intro i h1 h2; exact ⟨a0, by simp [collectMem, Buf.ofFn, h1, h2]⟩
  · intro i hi
    simp only [collectMem, Buf.ofFn]
    exact if_neg (by omega)
  · intro i h1 h2
    simp only [collectMem, List.length_nil] at h1
    simp only [collectMem, Buf.ofFn]
    exact if_pos (by omega)
  · intro n hn
    exact ⟨((mem_gridStride hG).1 hn).1, (gridStride_owner hG t.2 hn).symm⟩
  · intro n hn
    simp [collectMem]
  · intro n h1 h2 h3
    exact absurd (h2 ▸ mem_gridStride_mod hG h1) h3

/-- Invariant of a whole launch. -/
def CAll (sel : Nat → Option (List (A → A))) (numel : Nat) (cap : Int) (a0 : A) (G : Nat)
    (x : (Fin G → CState A) × CMem A) : Prop :=
  CInv sel numel cap a0 x.2 ∧ ∀ t, CAssert sel numel cap a0 G t (x.1 t) x.2

theorem call_step (x y : (Fin G → CState A) × CMem A)
    (hx : CAll sel numel cap a0 G x) (h : SysStep (CollectStep sel) x y) :
    CAll sel numel cap a0 G y := by
  obtain ⟨i, l', hk, he⟩ := h
  obtain ⟨h1, h2, h3⟩ := collect_step hx.1 (hx.2 i) hk
  refine ⟨h1, fun j => ?_⟩
  rw [he]
  by_cases hj : j = i
  · subst hj; simpa using h2
  · rw [Function.update_of_ne hj]
    exact collect_stable (Ne.symm hj) h3 (hx.2 j)

/-- Steps for the remaining cells of a thread. -/
def cwork (sel : Nat → Option (List (A → A))) (w : List Nat) : Nat :=
  (w.map fun n => ((sel n).getD []).length + 2).sum

/-- Steps a thread still has at most. -/
def cmeas (sel : Nat → Option (List (A → A))) : CState A → Nat
  | .done => 0
  | .claim _ ups w => ups.length + 2 + cwork sel w
  | .fill _ _ ups w => ups.length + 1 + cwork sel w

theorem cmeas_next (w : List Nat) : cmeas sel (cnext sel w) ≤ cwork sel w := by
  induction w with
  | nil => simp [cnext, cmeas]
  | cons n w ih =>
    unfold cnext
    split
    · simp only [cwork, List.map_cons, List.sum_cons] at ih ⊢; omega
    · rename_i ups hc; simp [cmeas, cwork, hc]

theorem collect_measure : ∀ x y, CAll sel numel cap a0 G x → SysStep (CollectStep sel) x y →
    CAll sel numel cap a0 G y ∧ ∑ i, cmeas sel (y.1 i) < ∑ i, cmeas sel (x.1 i) :=
  sum_measure _ (cmeas sel) call_step fun x i l' s' _ hk => by
    generalize x.1 i = l at hk
    cases hk with
    | claim => simp [cmeas]
    | fill => simp [cmeas]
    | next => have := cmeas_next (sel := sel); simp only [cmeas]; exact Nat.lt_of_le_of_lt (this _) (by omega)

theorem collect_terminates (hG : 0 < G) :
    Terminates (CollectStep sel) (collectThreads sel numel G) (collectMem cap a0) :=
  terminates_of_measure (CAll sel numel cap a0 G) _ (collect_start hG) collect_measure

theorem collect_progress (x : (Fin G → CState A) × CMem A) (i : Fin G) :
    Returned (CollectStep sel) (x.1 i) ∨ ∃ r, CollectStep sel (x.1 i) x.2 r := by
  cases hl : x.1 i with
  | done => exact .inl fun s r h => by cases h
  | claim n ups w => exact .inr ⟨_, .claim⟩
  | fill n id ups w =>
    cases ups with
    | nil => exact .inr ⟨_, .next⟩
    | cons u ups =>
      cases h : x.2.slots id with
      | none => exact .inr ⟨_, .fillBad h⟩
      | some a => exact .inr ⟨_, .fill h⟩

theorem collect_completes (hG : 0 < G) (hroom : Fitting sel numel cap) :
    ∃ μ, Completes (CollectStep sel) (collectThreads sel numel G) (collectMem cap a0) μ :=
  completes_of_measure (CAll sel numel cap a0 G) _ (collect_start hG) collect_measure
    (fun x i hx => collect_safe hroom hx.1 (hx.2 i)) (fun x i _ => collect_progress x i)
    (fun l s e h => by cases h)

theorem collect_no_ub (hG : 0 < G) (hroom : Fitting sel numel cap) :
    ¬ Exec (CollectStep sel) (collectThreads sel numel G) (collectMem cap a0) .ub := by
  intro h
  obtain ⟨ls, μ, he, _⟩ := h.rely (I := CInv sel numel cap a0) (T := CAssert sel numel cap a0 G)
    (G := CGuar G)
    (fun _ _ _ _ _ hI hT hk => collect_step hI hT hk)
    (fun _ _ _ hI hT => collect_safe hroom hI hT)
    (fun _ _ _ _ _ hne _ _ hG hT => collect_stable hne hG hT)
    (collect_start hG).1 (collect_start hG).2
  cases he

theorem returned_collect {l : CState A} (h : Returned (CollectStep sel) l) : l = .done := by
  cases l with
  | done => rfl
  | claim n ups w => exact absurd CollectStep.claim (h ⟨0, fun _ => none, []⟩ _)
  | fill n id ups w =>
    cases ups with
    | nil => exact absurd CollectStep.next (h ⟨0, fun _ => none, []⟩ _)
    | cons u ups => exact absurd (CollectStep.fillBad rfl) (h ⟨0, fun _ => none, []⟩ .ub)

/-- What a complete execution has done, whatever the capacity. -/
theorem collect_all (hG : 0 < G) {μ : CMem A}
    (h : Completes (CollectStep sel) (collectThreads sel numel G) (collectMem cap a0) μ) :
    CInv sel numel cap a0 μ ∧ ∀ n, n < numel → CDone sel cap a0 μ n := by
  obtain ⟨ls, hE, hret⟩ := h
  have key : ∀ {ls ls' : Fin G → CState A} {m m' : CMem A},
      Exec (CollectStep sel) ls m (.ok (ls', m')) → CAll sel numel cap a0 G (ls, m) →
      CAll sel numel cap a0 G (ls', m') := by
    intro ls ls' m m' hE hA
    generalize ho : (Outcome.ok (ls', m') : Outcome ((Fin G → CState A) × CMem A)) = o at hE
    induction hE with
    | stop ls m => cases ho; exact hA
    | @step ls m m1 l' o i hk _ ih => exact ih (call_step _ _ hA ⟨i, l', hk, rfl⟩) ho
    | fault i hk => cases ho
  obtain ⟨hI, hT⟩ := key hE (collect_start hG)
  refine ⟨hI, fun n hn => ?_⟩
  have := (hT ⟨n % G, Nat.mod_lt _ hG⟩).fin n hn rfl
  simp only [returned_collect (hret _)] at this
  exact this (by simp [cpending])

/-- What every complete execution leaves: the selected cells have taken the numbers from 0 up, in
some order, and the records are those of the cells in that order. -/
structure Collected (sel : Nat → Option (List (A → A))) (numel : Nat) (a0 : A) (μ : CMem A) :
    Prop where
  counter : μ.counter = μ.claims.length
  perm : μ.claims.Perm (selected sel numel)
  slot : ∀ (k n : Nat), μ.claims[k]? = some n → ∃ ups, sel n = some ups ∧
    μ.slots k = some (build a0 ups)

theorem collect_result (hG : 0 < G) (hcap : 0 ≤ cap) (hne : ∀ n, sel n ≠ some []) {μ : CMem A}
    (h : Completes (CollectStep sel) (collectThreads sel numel G) (collectMem cap a0) μ) :
    Fitting sel numel cap ∧ Collected sel numel a0 μ := by
  obtain ⟨hI, hdone⟩ := collect_all hG h
  have hperm : μ.claims.Perm (selected sel numel) := by
    refine (List.perm_ext_iff_of_nodup hI.nodup (List.nodup_range.filter _)).2 fun n =>
      ⟨hI.mem n, fun hn => ?_⟩
    simp only [selected, List.mem_filter, List.mem_range, Option.isSome_iff_exists] at hn
    obtain ⟨hlt, ups, he⟩ := hn
    obtain ⟨k, hk, _⟩ := hdone n hlt ups he
    exact List.mem_of_getElem? hk
  have hslot : ∀ (k n : Nat), μ.claims[k]? = some n → ∃ ups, sel n = some ups ∧ (k : Int) < cap ∧
      μ.slots k = some (build a0 ups) := by
    intro k n hk
    have hm := hI.mem n (List.mem_of_getElem? hk)
    simp only [selected, List.mem_filter, List.mem_range, Option.isSome_iff_exists] at hm
    obtain ⟨hlt, ups, he⟩ := hm
    obtain ⟨k', hk', hor, hb⟩ := hdone n hlt ups he
    have hkk : k = k' :=
      (List.getElem?_inj (List.getElem?_eq_some_iff.1 hk).1 hI.nodup).1 (hk.trans hk'.symm)
    subst hkk
    have hlt' : (k : Int) < cap := hor.resolve_left fun e => hne n (e ▸ he)
    obtain ⟨a, ha⟩ := hI.slots k (by omega) hlt'
    exact ⟨ups, he, hlt', by rw [ha, hb a ha]⟩
  refine ⟨?_, hI.counter, hperm, fun k n hk => ?_⟩
  · unfold Fitting
    rw [← hperm.length_eq]
    rcases Nat.eq_zero_or_pos μ.claims.length with h0 | hpos
    · rw [h0]; exact_mod_cast hcap
    · obtain ⟨n, hn⟩ : ∃ n, μ.claims[μ.claims.length - 1]? = some n :=
        ⟨_, List.getElem?_eq_getElem (by omega)⟩
      obtain ⟨_, _, hlt, _⟩ := hslot _ n hn
      omega
  · obtain ⟨ups, h1, _, h2⟩ := hslot k n hk
    exact ⟨ups, h1, h2⟩

/-- Without room, no execution completes and some execution has undefined behaviour. -/
theorem collect_overflow (hG : 0 < G) (hcap : 0 ≤ cap) (hne : ∀ n, sel n ≠ some [])
    (hroom : ¬ Fitting sel numel cap) :
    (¬ ∃ μ, Completes (CollectStep sel) (collectThreads sel numel G) (collectMem cap a0) μ) ∧
      Exec (CollectStep sel) (collectThreads sel numel G) (collectMem cap a0) .ub := by
  have h1 : ¬ ∃ μ, Completes (CollectStep sel) (collectThreads sel numel G) (collectMem cap a0) μ :=
    fun ⟨μ, h⟩ => hroom (collect_result hG hcap hne h).1
  exact ⟨h1, (completes_or_faults (CAll sel numel cap a0 G) _ collect_measure
    (fun x i _ => collect_progress x i) (fun l s e h => by cases h) _ _
    (collect_start hG)).resolve_left h1⟩

end
end Bliss.Gpu
