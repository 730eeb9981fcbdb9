import Verif.Gpu.Components

/-!
# The first kernel of the GPU component search
-/

namespace Bliss.Gpu

open Bliss.Comp

section
variable {F : Type} [Sub F] [Div F] [LinearOrder F] [OfNat F 0] [OfNat F 2]

theorem lin_cellAt {g : Grid} {k : Nat} : lin g (cellAt g k) = k := by
  simp only [lin, cellAt]
  have := Nat.div_add_mod k g.chans
  push_cast
  have h : ((k / g.chans * g.chans + k % g.chans : Nat) : Int) = (k : Int) := by
    rw [Nat.mul_comm, this]
  push_cast at h
  exact h

/-- Cells of the grid are the positions below its size. -/
theorem has_lin {g : Grid} {x : Coord} (h : g.has x) :
    ∃ k : Nat, k < g.drifts * g.chans ∧ cellAt g k = x ∧ lin g x = k := by
  obtain ⟨k, hk, rfl⟩ := has_cellAt h
  exact ⟨k, hk, rfl, lin_cellAt⟩

theorem lin_inj {g : Grid} {x y : Coord} (hx : g.has x) (hy : g.has y)
    (h : lin g x = lin g y) : x = y := by
  obtain ⟨k, _, rfl, e⟩ := has_lin hx
  obtain ⟨k', _, rfl, e'⟩ := has_lin hy
  have : k = k' := by rw [e, e'] at h; exact_mod_cast h
  rw [this]

theorem scanHood_none {s : Search F} {ys : List Coord} {st : Bool × F × Int} :
    scanHood s ys st = none ↔ ∃ y ∈ ys, ¬ s.grid.has y := by
  induction ys generalizing st with
  | nil => simp [scanHood]
  | cons y ys ih =>
    obtain ⟨b, best, m⟩ := st
    unfold scanHood
    by_cases hy : s.grid.has y
    · simp only [hy, if_true]
      split <;> rw [ih] <;> simp [hy]
    · simp [hy]

theorem scanHood_some {s : Search F} {ys : List Coord} {b b' : Bool} {best best' : F} {m m' : Int}
    (h : scanHood s ys (b, best, m) = some (b', best', m')) :
    best ≤ best' ∧ (∀ y ∈ ys, s.snr y ≤ best') ∧
      ((best' = best ∧ b' = b ∧ m' = m) ∨
        (b' = false ∧ best < best' ∧ ∃ y ∈ ys, m' = lin s.grid y ∧ best' = s.snr y)) := by
  induction ys generalizing b best m with
  | nil =>
    simp only [scanHood, Option.some.injEq, Prod.mk.injEq] at h
    obtain ⟨rfl, rfl, rfl⟩ := h
    exact ⟨le_refl _, by simp, .inl ⟨rfl, rfl, rfl⟩⟩
  | cons y ys ih =>
    unfold scanHood at h
    by_cases hy : s.grid.has y
    · simp only [hy, if_true] at h
      split at h
      · rename_i hlt
        obtain ⟨h1, h2, h3⟩ := ih h
        refine ⟨(hlt.trans_le h1).le, ?_, .inr ?_⟩
        · exact List.forall_mem_cons.2 ⟨h1, h2⟩
        · rcases h3 with ⟨e1, e2, e3⟩ | ⟨e1, e2, z, hz, e3, e4⟩
          · exact ⟨e2, e1 ▸ hlt, y, by simp, e3, e1⟩
          · exact ⟨e1, hlt.trans e2, z, by simp [hz], e3, e4⟩
      · rename_i hge
        obtain ⟨h1, h2, h3⟩ := ih h
        refine ⟨h1, ?_, ?_⟩
        · exact List.forall_mem_cons.2 ⟨(not_lt.1 hge).trans h1, h2⟩
        · rcases h3 with h3 | ⟨e1, e2, z, hz, e3, e4⟩
          · exact .inl h3
          · exact .inr ⟨e1, e2, z, by simp [hz], e3, e4⟩
    · simp [hy] at h

/-- The neighbours of a cell. -/
def hood (s : Search F) (x : Coord) : List Coord := (l1Offsets s.dist).map (shift x)

/-- A cell gets a number of its own exactly if it is above the threshold and half the threshold,
its whole neighbourhood lies in the plane, and no neighbour is stronger. -/
theorem classify_peak {s : Search F} {x : Coord} :
    classify s x = .peak ↔ s.thr / 2 < s.snr x ∧ s.thr < s.snr x ∧
      ∀ y ∈ hood s x, s.grid.has y ∧ s.snr y ≤ s.snr x := by
  unfold classify
  split
  · rename_i hh
    cases hsc : scanHood s ((l1Offsets s.dist).map (shift x)) (true, s.snr x, lin s.grid x) with
    | none =>
      obtain ⟨y, hy, hn⟩ := scanHood_none.1 hsc
      simp only [reduceCtorEq, false_iff]
      rintro ⟨_, _, h⟩
      exact hn (h y hy).1
    | some r =>
      obtain ⟨b', best', m'⟩ := r
      have hall : ∀ y ∈ hood s x, s.grid.has y := fun y hy => by
        by_contra hn
        have := (scanHood_none (st := (true, s.snr x, lin s.grid x))).2 ⟨y, hy, hn⟩
        rw [hood, hsc] at this; cases this
      obtain ⟨h1, h2, h3⟩ := scanHood_some hsc
      rcases h3 with ⟨e1, rfl, _⟩ | ⟨rfl, e2, y, hy, _, e4⟩
      · subst e1
        by_cases ht : s.thr < s.snr x
        · simp only [ht, if_true, true_and, hh, true_iff]
          exact fun y hy => ⟨hall y hy, h2 y hy⟩
        · simp [ht]
      · simp only [reduceCtorEq, false_iff]
        rintro ⟨_, _, h⟩
        have := (h y hy).2
        rw [← e4] at this
        exact absurd e2 (not_lt.2 this)
  · rename_i hh
    simp [hh]

/-- A cell points to another one only if that is a strictly stronger neighbour; the whole
neighbourhood lies in the plane. -/
theorem classify_toward {s : Search F} {x : Coord} {m : Int} (h : classify s x = .toward m) :
    s.thr / 2 < s.snr x ∧ (∀ y ∈ hood s x, s.grid.has y) ∧
      ∃ y ∈ hood s x, m = lin s.grid y ∧ s.snr x < s.snr y ∧ ∀ z ∈ hood s x, s.snr z ≤ s.snr y := by
  unfold classify at h
  split at h
  · rename_i hh
    cases hsc : scanHood s ((l1Offsets s.dist).map (shift x)) (true, s.snr x, lin s.grid x) with
    | none => rw [hsc] at h; cases h
    | some r =>
      obtain ⟨b', best', m'⟩ := r
      have hall : ∀ y ∈ hood s x, s.grid.has y := fun y hy => by
        by_contra hn
        have := (scanHood_none (st := (true, s.snr x, lin s.grid x))).2 ⟨y, hy, hn⟩
        rw [hood, hsc] at this; cases this
      obtain ⟨h1, h2, h3⟩ := scanHood_some hsc
      rw [hsc] at h
      rcases h3 with ⟨e1, rfl, _⟩ | ⟨rfl, e2, y, hy, e3, e4⟩
      · simp only at h; split at h <;> cases h
      · simp only [Class.toward.injEq] at h
        subst h
        exact ⟨hh, hall, y, hy, e3, e4 ▸ e2, fun z hz => e4 ▸ h2 z hz⟩
  · cases h

theorem mem_hood {s : Search F} {x y : Coord} :
    y ∈ hood s x ↔ (y.1 - x.1, y.2 - x.2) ∈ l1Offsets s.dist := by
  simp only [hood, List.mem_map, shift]
  constructor
  · rintro ⟨o, ho, rfl⟩
    have : (x.1 + o.1 - x.1, x.2 + o.2 - x.2) = o := by ext <;> simp
    rw [this]; exact ho
  · intro h; exact ⟨_, h, by ext <;> simp⟩

/-! ## The kernel -/

section Kernel
variable {s : Search F} {cap : Int} {G : Nat}

/-- What the first kernel leaves for the cell `n`. -/
def IDone (s : Search F) (cap : Int) (μ : InitMem F) (n : Nat) : Prop :=
  match classify s (cellAt s.grid n) with
  | .skip => μ.labels n = some 0
  | .peak => ∃ k : Nat, μ.claims[k]? = some n ∧ μ.labels n = some (8 + k) ∧
      μ.slots (8 + k) = some ⟨n, s.snr (cellAt s.grid n), 0⟩
  | .toward m => μ.labels n = some (cap + m)

/-- Memory invariant. -/
structure IInv (s : Search F) (cap : Int) (μ : InitMem F) : Prop where
  counter : μ.counter = 8 + μ.claims.length
  nodup : μ.claims.Nodup
  peaks : ∀ n ∈ μ.claims, n < numel s ∧ classify s (cellAt s.grid n) = .peak
  slots : ∀ i : Int, 0 ≤ i → i < cap → ∃ a, μ.slots i = some a
  labels : ∀ n : Nat, n < numel s → ∃ v, μ.labels n = some v
  outside : ∀ i : Int, i < 8 ∨ cap ≤ i → μ.slots i = (initMem s cap).slots i
  outlab : ∀ i : Int, i < 0 ∨ (numel s : Int) ≤ i → μ.labels i = none

/-- Cells a thread has still to finish. -/
def ipending : IState → List Nat
  | .done => []
  | .claim n w | .fill n _ w | .label n _ w | .point n _ w => n :: w

/-- Assertion about the step in progress. -/
def IPc (s : Search F) (μ : InitMem F) : IState → Prop
  | .done => True
  | .claim n w => classify s (cellAt s.grid n) = .peak ∧ n ∉ μ.claims ∧
      ∀ n' ∈ w, n' ∉ μ.claims ∧ μ.labels n' = some 0
  | .fill n id w => classify s (cellAt s.grid n) = .peak ∧
      (∃ k : Nat, id = 8 + k ∧ μ.claims[k]? = some n) ∧
      ∀ n' ∈ w, n' ∉ μ.claims ∧ μ.labels n' = some 0
  | .label n id w => classify s (cellAt s.grid n) = .peak ∧
      (∃ k : Nat, id = 8 + k ∧ μ.claims[k]? = some n ∧
        μ.slots id = some ⟨n, s.snr (cellAt s.grid n), 0⟩) ∧
      ∀ n' ∈ w, n' ∉ μ.claims ∧ μ.labels n' = some 0
  | .point n m w => classify s (cellAt s.grid n) = .toward m ∧
      ∀ n' ∈ w, n' ∉ μ.claims ∧ μ.labels n' = some 0

/-- Thread assertion. -/
structure IAssert (s : Search F) (cap : Int) (G : Nat) (t : Fin G) (l : IState) (μ : InitMem F) :
    Prop where
  owned : ∀ n ∈ ipending l, n < numel s ∧ n % G = t
  nodup : (ipending l).Nodup
  pc : IPc s μ l
  fin : ∀ n, n < numel s → n % G = t → n ∉ ipending l → IDone s cap μ n

/-- What a step of thread `t` may change. -/
structure IGuar (cap : Int) (G : Nat) (t : Fin G) (μ μ' : InitMem F) : Prop where
  claims : μ'.claims = μ.claims ∨ ∃ n, n % G = t ∧ μ'.claims = μ.claims ++ [n]
  labels : ∀ n : Nat, n % G ≠ t → μ'.labels n = μ.labels n
  slots : ∀ (k : Nat) (n : Nat), μ.claims[k]? = some n → n % G ≠ t →
    μ'.slots (8 + k) = μ.slots (8 + k)

theorem ipc_next {μ : InitMem F} {w : List Nat}
    (h : ∀ n' ∈ w, n' ∉ μ.claims ∧ μ.labels n' = some 0) : IPc s μ (inext s w) := by
  induction w with
  | nil => trivial
  | cons n w ih =>
    have hw : ∀ n' ∈ w, n' ∉ μ.claims ∧ μ.labels n' = some 0 := fun n' h' => h n' (by simp [h'])
    unfold inext
    split
    · exact ih hw
    · rename_i hc; exact ⟨hc, (h n (by simp)).1, hw⟩
    · rename_i m hc; exact ⟨hc, hw⟩

theorem ipending_next (w : List Nat) : (ipending (inext s w)).Sublist w := by
  induction w with
  | nil => exact .slnil
  | cons n w ih =>
    unfold inext
    split
    · exact ih.cons _
    · exact List.Sublist.refl _
    · exact List.Sublist.refl _

/-- Cells skipped by the loop are finished. -/
theorem idone_next {μ : InitMem F} {w : List Nat} {n : Nat} (hn : n ∈ w)
    (h : ∀ n' ∈ w, n' ∉ μ.claims ∧ μ.labels n' = some 0)
    (hnot : n ∉ ipending (inext s w)) : IDone s cap μ n := by
  induction w with
  | nil => simp at hn
  | cons m w ih =>
    have hw : ∀ n' ∈ w, n' ∉ μ.claims ∧ μ.labels n' = some 0 := fun n' h' => h n' (by simp [h'])
    unfold inext at hnot
    split at hnot
    · rename_i hc
      rcases List.mem_cons.1 hn with rfl | hn
      · simp only [IDone, hc]; exact (h n (by simp)).2
      · exact ih hn hw hnot
    · simp only [ipending] at hnot; exact absurd hn hnot
    · simp only [ipending] at hnot; exact absurd hn hnot

theorem iassert_next {t : Fin G} {μ : InitMem F} {w : List Nat}
    (hown : ∀ n ∈ w, n < numel s ∧ n % G = t) (hnd : w.Nodup)
    (h : ∀ n' ∈ w, n' ∉ μ.claims ∧ μ.labels n' = some 0)
    (hfin : ∀ n, n < numel s → n % G = t → n ∉ w → IDone s cap μ n) :
    IAssert s cap G t (inext s w) μ where
  owned n hn := hown n ((ipending_next w).subset hn)
  nodup := (ipending_next w).nodup hnd
  pc := ipc_next h
  fin n h1 h2 h3 := by
    by_cases hw : n ∈ w
    · exact idone_next hw h h3
    · exact hfin n h1 h2 hw

/-- Capacity suffices: 8 reserved numbers and one for each peak. -/
def Roomy (s : Search F) (cap : Int) : Prop :=
  8 + (((List.range (numel s)).filter fun n =>
    decide (classify s (cellAt s.grid n) = .peak)).length : Int) ≤ cap

theorem claims_le {μ : InitMem F} (hI : IInv s cap μ) :
    μ.claims.length ≤ ((List.range (numel s)).filter fun n =>
      decide (classify s (cellAt s.grid n) = .peak)).length := by
  refine (List.subperm_of_subset hI.nodup fun n hn => ?_).length_le
  have := hI.peaks n hn
  simp [this.1, this.2]

theorem init_safe (hroom : Roomy s cap) {t : Fin G} {l : IState} {μ : InitMem F}
    (hI : IInv s cap μ) (hT : IAssert s cap G t l μ) : ¬ InitStep s cap l μ .ub := by
  intro h
  have hle := claims_le hI
  unfold Roomy at hroom
  cases h with
  | @fillBad n id w _ h =>
    obtain ⟨_, ⟨k, rfl, hk⟩, _⟩ := hT.pc
    have hk' : k < μ.claims.length := by
      rw [List.getElem?_eq_some_iff] at hk; exact hk.1
    obtain ⟨a, ha⟩ := hI.slots (8 + k) (by omega) (by omega)
    rw [ha] at h; cases h
  | @labelBad n id w _ h =>
    obtain ⟨v, hv⟩ := hI.labels n (hT.owned n (by simp [ipending])).1
    rw [hv] at h; cases h
  | @pointBad n id w _ h =>
    obtain ⟨v, hv⟩ := hI.labels n (hT.owned n (by simp [ipending])).1
    rw [hv] at h; cases h

theorem idone_mono {t u : Fin G} (htu : t ≠ u) {μ μ' : InitMem F} (hG : IGuar cap G t μ μ')
    {n : Nat} (hn : n % G = u) (h : IDone s cap μ n) : IDone s cap μ' n := by
  have hne : n % G ≠ t := fun h => htu (Fin.ext (h.symm.trans hn))
  unfold IDone at h ⊢
  split
  · rename_i hc; simp only [hc] at h; rw [hG.labels n hne]; exact h
  · rename_i hc; simp only [hc] at h
    obtain ⟨k, h1, h2, h3⟩ := h
    refine ⟨k, ?_, by rw [hG.labels n hne]; exact h2, by rw [hG.slots k n h1 hne]; exact h3⟩
    rcases hG.claims with e | ⟨m, _, e⟩ <;> rw [e]
    · exact h1
    · rw [List.getElem?_append_left]
      · exact h1
      · rw [List.getElem?_eq_some_iff] at h1; exact h1.1
  · rename_i m hc; simp only [hc] at h; rw [hG.labels n hne]; exact h

theorem ipc_rest {t u : Fin G} (htu : t ≠ u) {μ μ' : InitMem F} (hG : IGuar cap G t μ μ')
    {w : List Nat} (hown : ∀ n ∈ w, n % G = u)
    (h : ∀ n' ∈ w, n' ∉ μ.claims ∧ μ.labels n' = some 0) :
    ∀ n' ∈ w, n' ∉ μ'.claims ∧ μ'.labels n' = some 0 := by
  intro n hn
  have hne : n % G ≠ t := fun h => htu (Fin.ext (h.symm.trans (hown n hn)))
  refine ⟨?_, by rw [hG.labels n hne]; exact (h n hn).2⟩
  rcases hG.claims with e | ⟨m, hm, e⟩ <;> rw [e]
  · exact (h n hn).1
  · simp only [List.mem_append, List.mem_singleton, not_or]
    exact ⟨(h n hn).1, fun e => hne (e ▸ hm)⟩

theorem init_stable {t u : Fin G} (htu : t ≠ u) {l : IState} {μ μ' : InitMem F}
    (hG : IGuar cap G t μ μ') (h : IAssert s cap G u l μ) : IAssert s cap G u l μ' := by
  have hclaim : ∀ (k n : Nat), μ.claims[k]? = some n → μ'.claims[k]? = some n := by
    intro k n h1
    rcases hG.claims with e | ⟨m, _, e⟩ <;> rw [e]
    · exact h1
    · rw [List.getElem?_append_left]
      · exact h1
      · rw [List.getElem?_eq_some_iff] at h1; exact h1.1
  refine ⟨h.owned, h.nodup, ?_, fun n h1 h2 h3 => idone_mono htu hG h2 (h.fin n h1 h2 h3)⟩
  have hpc := h.pc
  have hown := h.owned
  cases l with
  | done => trivial
  | claim n w =>
    have hn : n % G = u := (hown n (by simp [ipending])).2
    have hrest := ipc_rest htu hG (w := w) (fun n' h' => (hown n' (by simp [ipending, h'])).2) hpc.2.2
    refine ⟨hpc.1, ?_, hrest⟩
    rcases hG.claims with e | ⟨m, hm, e⟩ <;> rw [e]
    · exact hpc.2.1
    · simp only [List.mem_append, List.mem_singleton, not_or]
      exact ⟨hpc.2.1, fun e => htu (Fin.ext ((e ▸ hm : n % G = t).symm.trans hn))⟩
  | fill n id w =>
    have hrest := ipc_rest htu hG (w := w) (fun n' h' => (hown n' (by simp [ipending, h'])).2) hpc.2.2
    obtain ⟨k, e, hk⟩ := hpc.2.1
    exact ⟨hpc.1, ⟨k, e, hclaim k n hk⟩, hrest⟩
  | label n id w =>
    have hn : n % G = u := (hown n (by simp [ipending])).2
    have hne : n % G ≠ t := fun h => htu (Fin.ext (h.symm.trans hn))
    have hrest := ipc_rest htu hG (w := w) (fun n' h' => (hown n' (by simp [ipending, h'])).2) hpc.2.2
    obtain ⟨k, rfl, hk, hs⟩ := hpc.2.1
    exact ⟨hpc.1, ⟨k, rfl, hclaim k n hk, by rw [hG.slots k n hk hne]; exact hs⟩, hrest⟩
  | point n m w =>
    have hrest := ipc_rest htu hG (w := w) (fun n' h' => (hown n' (by simp [ipending, h'])).2) hpc.2
    exact ⟨hpc.1, hrest⟩

theorem init_step {t : Fin G} {l l' : IState} {μ μ' : InitMem F}
    (hI : IInv s cap μ) (hT : IAssert s cap G t l μ) (h : InitStep s cap l μ (.ok (l', μ'))) :
    IInv s cap μ' ∧ IAssert s cap G t l' μ' ∧ IGuar cap G t μ μ' := by
  have hpc := hT.pc
  have hown := hT.owned
  have hnd := hT.nodup
  have hfin := hT.fin
  cases h with
  | @claim n w _ =>
    simp only [ipending] at hown hnd hfin
    have hn := hown n (by simp)
    have hnw : n ∉ w := (List.nodup_cons.1 hnd).1
    refine ⟨⟨by simp [hI.counter]; omega, ?_, ?_, hI.slots, hI.labels, hI.outside, hI.outlab⟩,
      ⟨hown, hnd, ?_, ?_⟩,
      ⟨.inr ⟨n, hn.2, rfl⟩, fun _ _ => rfl, fun _ _ _ _ => rfl⟩⟩
    · rw [List.nodup_append]
      refine ⟨hI.nodup, by simp, ?_⟩
      intro a ha b hb
      rw [List.mem_singleton] at hb
      subst hb
      exact fun e => hpc.2.1 (e ▸ ha)
    · intro m hm
      rcases List.mem_append.1 hm with hm | hm
      · exact hI.peaks m hm
      · rw [List.mem_singleton] at hm; subst hm; exact ⟨hn.1, hpc.1⟩
    · refine ⟨hpc.1, ⟨μ.claims.length, hI.counter, by simp⟩, fun n' h' => ?_⟩
      refine ⟨?_, (hpc.2.2 n' h').2⟩
      simp only [List.mem_append, List.mem_singleton, not_or]
      exact ⟨(hpc.2.2 n' h').1, fun e => hnw (e ▸ h')⟩
    · intro m h1 h2 h3
      have := hfin m h1 h2 h3
      unfold IDone at this ⊢
      split
      · rename_i hc; simpa only [hc] using this
      · rename_i hc; simp only [hc] at this
        obtain ⟨k, e1, e2, e3⟩ := this
        refine ⟨k, ?_, e2, e3⟩
        rw [List.getElem?_append_left]
        · exact e1
        · rw [List.getElem?_eq_some_iff] at e1; exact e1.1
      · rename_i hc; simpa only [hc] using this
  | @fill n id w _ a h =>
    simp only [ipending] at hown hnd hfin
    obtain ⟨hc, ⟨k, rfl, hk⟩, hrest⟩ := hpc
    have hn := hown n (by simp)
    have huniq : ∀ (k' n' : Nat), μ.claims[k']? = some n' → n' ≠ n → (8 + (k' : Int)) ≠ 8 + k := by
      intro k' n' h' hne e
      have : k' = k := by omega
      subst this
      rw [hk] at h'
      exact hne (Option.some.inj h').symm
    refine ⟨⟨hI.counter, hI.nodup, hI.peaks, ?_, hI.labels, ?_, hI.outlab⟩,
      ⟨hown, hnd, ⟨hc, ⟨k, rfl, hk, by simp⟩, hrest⟩, ?_⟩,
      ⟨.inl rfl, fun _ _ => rfl, fun k' n' h' hne => ?_⟩⟩
    · intro i h1 h2
      obtain ⟨a', ha'⟩ := hI.slots i h1 h2
      by_cases hi : i = 8 + k
      · subst hi; exact ⟨_, if_pos rfl⟩
      · exact ⟨a', (if_neg hi).trans ha'⟩
    · intro i hi
      have : i ≠ 8 + k := by
        rintro rfl
        have h' := hI.outside _ hi
        rw [h] at h'
        simp only [initMem, Buf.ofFn] at h'
        split at h'
        · omega
        · cases h'
      simpa [this] using hI.outside i hi
    · intro m h1 h2 h3
      have hmn : m ≠ n := fun e => h3 (by simp [e, ipending])
      have := hfin m h1 h2 h3
      unfold IDone at this ⊢
      split
      · rename_i hc; simpa only [hc] using this
      · rename_i hc; simp only [hc] at this
        obtain ⟨k', e1, e2, e3⟩ := this
        exact ⟨k', e1, e2, (if_neg (huniq k' m e1 hmn)).trans e3⟩
      · rename_i hc; simpa only [hc] using this
    · have : n' ≠ n := fun e => hne (e ▸ hn.2)
      exact if_neg (huniq k' n' h' this)
  | @label n id w _ v h =>
    simp only [ipending] at hown hnd hfin
    obtain ⟨hc, ⟨k, rfl, hk, hs⟩, hrest⟩ := hpc
    have hn := hown n (by simp)
    have hnw : n ∉ w := (List.nodup_cons.1 hnd).1
    refine ⟨⟨hI.counter, hI.nodup, hI.peaks, hI.slots, ?_, hI.outside, ?_⟩,
      iassert_next (fun m hm => hown m (by simp [hm]))
        (List.nodup_cons.1 hnd).2 (fun m hm => ⟨(hrest m hm).1, ?_⟩) (fun m h1 h2 h3 => ?_),
      ⟨.inl rfl, fun m hm => ?_, fun _ _ _ _ => rfl⟩⟩
    · intro m hm
      obtain ⟨v', hv'⟩ := hI.labels m hm
      by_cases he : m = n
      · subst he; exact ⟨_, if_pos rfl⟩
      · exact ⟨v', (if_neg (by exact_mod_cast he)).trans hv'⟩
    · intro i hi
      have : i ≠ n := by have := hn.1; omega
      simpa [this] using hI.outlab i hi
    · have : m ≠ n := fun e => hnw (e ▸ hm)
      simpa [this] using (hrest m hm).2
    · by_cases he : m = n
      · subst he
        simp only [IDone, hc]
        exact ⟨k, hk, by simp, hs⟩
      · have := hfin m h1 h2 (by simp [he, h3])
        unfold IDone at this ⊢
        split
        · rename_i hc; simp only [hc] at this; simpa [he] using this
        · rename_i hc; simp only [hc] at this
          obtain ⟨k', e1, e2, e3⟩ := this
          exact ⟨k', e1, by simpa [he] using e2, e3⟩
        · rename_i hc; simp only [hc] at this; simpa [he] using this
    · have : m ≠ n := fun e => hm (e ▸ hn.2)
      simp [this]
  | @point n m' w _ v h =>
    simp only [ipending] at hown hnd hfin
    obtain ⟨hc, hrest⟩ := hpc
    have hn := hown n (by simp)
    have hnw : n ∉ w := (List.nodup_cons.1 hnd).1
    refine ⟨⟨hI.counter, hI.nodup, hI.peaks, hI.slots, ?_, hI.outside, ?_⟩,
      iassert_next (fun m hm => hown m (by simp [hm]))
        (List.nodup_cons.1 hnd).2 (fun m hm => ⟨(hrest m hm).1, ?_⟩) (fun m h1 h2 h3 => ?_),
      ⟨.inl rfl, fun m hm => ?_, fun _ _ _ _ => rfl⟩⟩
    · intro m hm
      obtain ⟨v', hv'⟩ := hI.labels m hm
      by_cases he : m = n
      · subst he; exact ⟨_, if_pos rfl⟩
      · exact ⟨v', (if_neg (by exact_mod_cast he)).trans hv'⟩
    · intro i hi
      have : i ≠ n := by have := hn.1; omega
      simpa [this] using hI.outlab i hi
    · have : m ≠ n := fun e => hnw (e ▸ hm)
      simpa [this] using (hrest m hm).2
    · by_cases he : m = n
      · subst he
        simp only [IDone, hc]
        simp
      · have := hfin m h1 h2 (by simp [he, h3])
        unfold IDone at this ⊢
        split
        · rename_i hc; simp only [hc] at this; simpa [he] using this
        · rename_i hc; simp only [hc] at this
          obtain ⟨k', e1, e2, e3⟩ := this
          exact ⟨k', e1, by simpa [he] using e2, e3⟩
        · rename_i hc; simp only [hc] at this; simpa [he] using this
    · have : m ≠ n := fun e => hm (e ▸ hn.2)
      simp [this]

theorem init_start (hG : 0 < G) : IInv s cap (initMem s cap) ∧
    ∀ t : Fin G, IAssert s cap G t (initThreads s G t) (initMem s cap) := by
  refine ⟨⟨by simp [initMem], by simp [initMem], by simp [initMem], ?_, ?_, fun _ _ => rfl, ?_⟩,
    fun t => iassert_next ?_ (gridStride_nodup hG) ?_ ?_⟩
  · intro i h1 h2; exact ⟨_, by simp [initMem, Buf.ofFn, h1, h2]; rfl⟩
  · intro n hn; exact ⟨0, by simp [initMem, Buf.ofFn, hn]⟩
  · intro i hi
    simp only [initMem, Buf.ofFn]
    exact if_neg (by omega)
  · intro n hn
    exact ⟨((mem_gridStride hG).1 hn).1, (gridStride_owner hG t.2 hn).symm⟩
  · intro n hn
    have := ((mem_gridStride hG).1 hn).1
    exact ⟨by simp [initMem], by simp [initMem, Buf.ofFn, this]⟩
  · intro n h1 h2 h3
    exact absurd (h2 ▸ mem_gridStride_mod hG h1) h3

theorem init_reach (hG : 0 < G) (hroom : Roomy s cap)
    {o : Outcome ((Fin G → IState) × InitMem F)}
    (h : Exec (InitStep s cap) (initThreads s G) (initMem s cap) o) :
    ∃ ls μ, o = .ok (ls, μ) ∧ IInv s cap μ ∧ ∀ t, IAssert s cap G t (ls t) μ :=
  h.rely (I := IInv s cap) (T := IAssert s cap G) (G := IGuar cap G)
    (fun _ _ _ _ _ hI hT hk => init_step hI hT hk)
    (fun _ _ _ hI hT => init_safe hroom hI hT)
    (fun _ _ _ _ _ hne _ _ hG hT => init_stable hne hG hT)
    (init_start hG).1 (init_start hG).2

theorem returned_init {l : IState} (h : Returned (InitStep s cap) l) : l = .done := by
  cases l with
  | done => rfl
  | claim n w => exact absurd InitStep.claim (h (initMem s cap) _)
  | fill n id w =>
    exact absurd (InitStep.fillBad rfl) (h { initMem s cap with slots := fun _ => none } .ub)
  | label n id w =>
    exact absurd (InitStep.labelBad rfl) (h { initMem s cap with labels := fun _ => none } .ub)
  | point n m w =>
    exact absurd (InitStep.pointBad rfl) (h { initMem s cap with labels := fun _ => none } .ub)

/-- What every complete execution of the first kernel leaves: the peaks have the numbers from 8
up, in some order `claims`. -/
structure Initialised (s : Search F) (cap : Int) (μ : InitMem F) : Prop where
  counter : μ.counter = 8 + μ.claims.length
  nodup : μ.claims.Nodup
  mem : ∀ n, n ∈ μ.claims ↔ n < numel s ∧ classify s (cellAt s.grid n) = .peak
  slot : ∀ (k : Nat) (n : Nat), μ.claims[k]? = some n →
    μ.slots (8 + k) = some ⟨n, s.snr (cellAt s.grid n), 0⟩
  peak : ∀ (k : Nat) (n : Nat), μ.claims[k]? = some n → μ.labels n = some (8 + k)
  skip : ∀ n : Nat, n < numel s → classify s (cellAt s.grid n) = .skip → μ.labels n = some 0
  toward : ∀ (n : Nat) (m : Int), n < numel s → classify s (cellAt s.grid n) = .toward m →
    μ.labels n = some (cap + m)
  outlab : ∀ i : Int, i < 0 ∨ (numel s : Int) ≤ i → μ.labels i = none
  room : 8 + (μ.claims.length : Int) ≤ cap

/-- What a complete execution of the first kernel has done to every cell. -/
theorem init_all (hG : 0 < G) {μ : InitMem F}
    (h : Completes (InitStep s cap) (initThreads s G) (initMem s cap) μ) :
    IInv s cap μ ∧ ∀ n, n < numel s → IDone s cap μ n := by
  obtain ⟨ls, hE, hret⟩ := h
  -- an execution that is not undefined keeps the invariant, whatever the capacity
  have key : ∀ {ls ls' : Fin G → IState} {m m' : InitMem F},
      Exec (InitStep s cap) ls m (.ok (ls', m')) → IInv s cap m → (∀ t, IAssert s cap G t (ls t) m) →
      IInv s cap m' ∧ ∀ t, IAssert s cap G t (ls' t) m' := by
    intro ls ls' m m' hE hI hT
    generalize ho : (Outcome.ok (ls', m') : Outcome ((Fin G → IState) × InitMem F)) = o at hE
    induction hE with
    | stop ls m => cases ho; exact ⟨hI, hT⟩
    | @step ls m m1 l' o i hk _ ih =>
      obtain ⟨h1, h2, h3⟩ := init_step hI (hT i) hk
      refine ih h1 (fun j => ?_) ho
      by_cases hj : j = i
      · subst hj; simpa using h2
      · rw [Function.update_of_ne hj]
        exact init_stable (Ne.symm hj) h3 (hT j)
    | fault i hk => cases ho
  obtain ⟨hI, hT⟩ := key hE (init_start hG).1 (init_start hG).2
  refine ⟨hI, fun n hn => ?_⟩
  have := (hT ⟨n % G, Nat.mod_lt _ hG⟩).fin n hn rfl
  rw [returned_init (hret _)] at this
  exact this (by simp [ipending])

/-- Without room for the peaks no execution completes. -/
theorem init_room (hG : 0 < G) {μ : InitMem F}
    (h : Completes (InitStep s cap) (initThreads s G) (initMem s cap) μ)
    (hp : ∃ n, n < numel s ∧ classify s (cellAt s.grid n) = .peak) : Roomy s cap := by
  obtain ⟨hI, hdone⟩ := init_all hG h
  have hpk : ∀ n, n < numel s → classify s (cellAt s.grid n) = .peak →
      ∃ k : Nat, μ.claims[k]? = some n ∧ μ.labels n = some (8 + k) ∧
        μ.slots (8 + k) = some ⟨n, s.snr (cellAt s.grid n), 0⟩ := by
    intro n hn hc
    have := hdone n hn
    simpa only [IDone, hc] using this
  have hle : ((List.range (numel s)).filter fun n =>
      decide (classify s (cellAt s.grid n) = .peak)).length ≤ μ.claims.length := by
    refine (List.subperm_of_subset (List.nodup_range.filter _) fun n hn => ?_).length_le
    simp only [List.mem_filter, List.mem_range, decide_eq_true_eq] at hn
    obtain ⟨k, hk, _⟩ := hpk n hn.1 hn.2
    exact List.mem_of_getElem? hk
  obtain ⟨n0, hn0, hc0⟩ := hp
  obtain ⟨k0, hk0, _⟩ := hpk n0 hn0 hc0
  have hpos : 0 < μ.claims.length := by
    have := (List.getElem?_eq_some_iff.1 hk0).1; omega
  obtain ⟨n, hn⟩ : ∃ n, μ.claims[μ.claims.length - 1]? = some n :=
    ⟨_, List.getElem?_eq_getElem (by omega)⟩
  have hmem := hI.peaks n (List.mem_of_getElem? hn)
  obtain ⟨k, hk, _, hs⟩ := hpk n hmem.1 hmem.2
  have : k = μ.claims.length - 1 :=
    (List.getElem?_inj (List.getElem?_eq_some_iff.1 hk).1 hI.nodup).1 (hk.trans hn.symm)
  have hlt : 8 + (k : Int) < cap := by
    by_contra hge
    have h' := hI.outside (8 + k) (.inr (by omega))
    rw [hs] at h'
    simp only [initMem, Buf.ofFn] at h'
    split at h'
    · omega
    · cases h'
  unfold Roomy
  omega

theorem init_result (hG : 0 < G) (hroom : Roomy s cap) {μ : InitMem F}
    (h : Completes (InitStep s cap) (initThreads s G) (initMem s cap) μ) :
    Initialised s cap μ := by
  obtain ⟨hI, hdone⟩ := init_all hG h
  have hpk : ∀ n, n < numel s → classify s (cellAt s.grid n) = .peak →
      ∃ k : Nat, μ.claims[k]? = some n ∧ μ.labels n = some (8 + k) ∧
        μ.slots (8 + k) = some ⟨n, s.snr (cellAt s.grid n), 0⟩ := by
    intro n hn hc
    have := hdone n hn
    simpa only [IDone, hc] using this
  have hboth : ∀ (k n : Nat), μ.claims[k]? = some n → μ.labels n = some (8 + k) ∧
      μ.slots (8 + k) = some ⟨n, s.snr (cellAt s.grid n), 0⟩ := by
    intro k n hk
    have hmem : n ∈ μ.claims := List.mem_of_getElem? hk
    obtain ⟨k', h1, h2, h3⟩ := hpk n (hI.peaks n hmem).1 (hI.peaks n hmem).2
    have hlt : k < μ.claims.length := (List.getElem?_eq_some_iff.1 hk).1
    have : k = k' := (List.getElem?_inj hlt hI.nodup).1 (hk.trans h1.symm)
    subst this
    exact ⟨h2, h3⟩
  refine ⟨hI.counter, hI.nodup, fun n => ⟨hI.peaks n, fun ⟨h1, h2⟩ => ?_⟩,
    fun k n hk => (hboth k n hk).2, fun k n hk => (hboth k n hk).1, fun n hn hc => ?_,
    fun n m hn hc => ?_, hI.outlab, ?_⟩
  · obtain ⟨k, hk, _⟩ := hpk n h1 h2
    exact List.mem_of_getElem? hk
  · have := hdone n hn; simpa only [IDone, hc] using this
  · have := hdone n hn; simpa only [IDone, hc] using this
  · have := claims_le hI
    unfold Roomy at hroom
    omega

end Kernel
end
end Bliss.Gpu
