import Verif.Gpu.ReduceCore

/-!
# The assertions at the barriers, and the launch
-/

namespace Bliss.Gpu

open Bliss.Nd

variable {V Acc L σ : Type}

namespace RKernel

variable {K : RKernel V Acc L σ} {s0 : Mem RAddr (RCell V Acc)} {G B b : Nat}

/-- The inputs are as at launch, the outputs are allocated, and the results in `done` are
stored. -/
def Env (M : K.Sem s0 G) (done : List (Nat × Acc)) (s : Mem RAddr (RCell V Acc)) : Prop :=
  Agree M.In s s0 ∧ (∀ k < K.numel, ∀ p ∈ K.outs (M.outAt k), ∃ c, s p.1 = some c) ∧
  ∀ d ∈ done, ∀ p ∈ K.outs (M.outAt d.1), s p.1 = some (.val (p.2 d.2))

/-- At a barrier between the first and the last of one result: the registers hold `c`, the cells
`g`. -/
def Mid (M : K.Sem s0 G) (b B : Nat) (done : List (Nat × Acc)) (g : Nat → Acc) (c : Nat → L)
    (x : Fin B → L) (s : Mem RAddr (RCell V Acc)) : Prop :=
  (∀ t, x t = c t) ∧ Env M done s ∧ ∀ t < B, s (.shared b t) = some (.acc (g t))

/-- Where thread 0 stores the result `p` next. -/
def Begin (M : K.Sem s0 G) (b B : Nat) (done : List (Nat × Acc)) (p : Option (Nat × Acc))
    (c : Nat → L) (x : Fin B → L) (s : Mem RAddr (RCell V Acc)) : Prop :=
  (∀ t, x t = c t) ∧ Env M done s ∧ (∀ t < B, ∃ v, s (.shared b t) = some v) ∧
  ∀ q, p = some q → s (.shared b 0) = some (.acc q.2)

theorem pend_out {M : K.Sem s0 G} {p : Option (Nat × Acc)} {a : RAddr}
    (h : Pend (K := K) M.outAt (p.map Prod.fst) a) :
    ∃ q o, p = some q ∧ o ∈ K.outs (M.outAt q.1) ∧ o.1 = a := by
  obtain ⟨k, hk, ha⟩ := h
  cases p with
  | none => cases hk
  | some q =>
    obtain ⟨o, ho, rfl⟩ := List.mem_map.1 ha
    simp only [Option.map_some, Option.some.injEq] at hk
    subst hk
    exact ⟨q, o, rfl, ho, rfl⟩

theorem emit_run (M : K.Sem s0 G) (p : Option (Nat × Acc)) (t : Nat)
    (hp : ∀ q, p = some q → q.1 < K.numel) (s : Mem RAddr (RCell V Acc))
    (hmap : ∀ k < K.numel, ∀ p ∈ K.outs (M.outAt k), ∃ c, s p.1 = some c)
    (hs : ∀ q, p = some q → s (.shared b 0) = some (.acc q.2)) :
    ∃ s1, (K.emit b t ((p.map Prod.fst).map M.outAt)).run s = .ok ((), s1) ∧
      (∀ a, ¬ (t = 0 ∧ Pend (K := K) M.outAt (p.map Prod.fst) a) → s1 a = s a) ∧
      (t = 0 → ∀ q, p = some q → ∀ o ∈ K.outs (M.outAt q.1), s1 o.1 = some (.val (o.2 q.2))) := by
  cases p with
  | none => exact ⟨s, rfl, fun _ _ => rfl, fun _ q h => by cases h⟩
  | some q =>
    by_cases ht : t = 0
    · refine ⟨written (K.outs (M.outAt q.1)) q.2 s, ?_, ?_, ?_⟩
      · simp only [Option.map_some, emit, ht, if_true, loadAcc, Prog.run, hs q rfl]
        exact storeAll_run _ _ _ fun o ho => hmap q.1 (hp q rfl) o ho
      · intro a ha
        apply written_of_not_mem
        intro hm
        exact ha ⟨ht, q.1, rfl, hm⟩
      · intro _ q' hq' o ho
        cases hq'
        exact written_of_mem _ _ _ (M.outs_nodup q.1 (hp q rfl)) o ho
    · exact ⟨s, by simp [emit, ht, Prog.run], fun _ _ => rfl, fun h => absurd h ht⟩

/-- The set a thread may touch when it stores the last result and begins the next one. -/
def beginX (M : K.Sem s0 G) (b : Nat) (p : Option Nat) (t : Nat) (a : RAddr) : Prop :=
  a = .shared b t ∨ M.In a ∨ (t = 0 ∧ Pend (K := K) M.outAt p a)

/-- The set it may write. -/
def beginW (M : K.Sem s0 G) (b : Nat) (p : Option Nat) (t : Nat) (a : RAddr) : Prop :=
  a = .shared b t ∨ (t = 0 ∧ Pend (K := K) M.outAt p a)

theorem not_in_shared (M : K.Sem s0 G) (b t : Nat) : ¬ M.In (.shared b t) := by
  rintro ⟨_, _, _, _, h⟩
  exact M.reads_global _ _ _ h

theorem pend_not_shared {M : K.Sem s0 G} {p : Option Nat} {t : Nat} :
    ¬ Pend (K := K) M.outAt p (.shared b t) := by
  rintro ⟨k, _, hk⟩
  obtain ⟨o, ho, hoe⟩ := List.mem_map.1 hk
  exact M.outs_global k o ho _ _ hoe

theorem pend_not_in {M : K.Sem s0 G} {p : Option Nat} (hp : ∀ k, p = some k → k < K.numel)
    {a : RAddr} (h : Pend (K := K) M.outAt p a) : ¬ M.In a := by
  obtain ⟨k, hk, ha⟩ := h
  obtain ⟨o, ho, rfl⟩ := List.mem_map.1 ha
  rintro ⟨k', hk', r, hr, h⟩
  exact M.outs_read k (hp k hk) o ho k' hk' r hr h

theorem begin_disjoint (M : K.Sem s0 G) {p : Option Nat} (hp : ∀ k, p = some k → k < K.numel)
    {i j : Nat} (hij : i ≠ j) {a : RAddr} (hW : beginW M b p i a) : ¬ beginX M b p j a := by
  rcases hW with rfl | ⟨hi, hpe⟩
  · rintro (h | h | ⟨_, h⟩)
    · cases h; exact hij rfl
    · exact not_in_shared M b i h
    · exact pend_not_shared h
  · rintro (rfl | h | ⟨hj, _⟩)
    · exact pend_not_shared hpe
    · exact pend_not_in hp hpe h
    · omega

theorem env_of (M : K.Sem s0 G) {done : List (Nat × Acc)} {p : Option (Nat × Acc)}
    {s s' : Mem RAddr (RCell V Acc)} (hE : Env M done s)
    (hdn : ∀ d ∈ done, d.1 < K.numel) (hp : ∀ q, p = some q → q.1 < K.numel)
    (hne : ∀ d ∈ done, ∀ q, p = some q → d.1 ≠ q.1)
    (hfr : ∀ a, (∀ t, a ≠ .shared b t) → ¬ Pend (K := K) M.outAt (p.map Prod.fst) a → s' a = s a)
    (hnew : ∀ q, p = some q → ∀ o ∈ K.outs (M.outAt q.1), s' o.1 = some (.val (o.2 q.2))) :
    Env M (done ++ p.toList) s' := by
  have hp' : ∀ k, p.map Prod.fst = some k → k < K.numel := by
    intro k hk
    obtain ⟨q, hq, rfl⟩ := Option.map_eq_some_iff.1 hk
    exact hp q hq
  refine ⟨fun a ha => ?_, fun k hk o ho => ?_, fun d hd o ho => ?_⟩
  · rw [hfr a ?_ fun h => pend_not_in hp' h ha]
    · exact hE.1 a ha
    · rintro t rfl; exact not_in_shared M _ _ ha
  · by_cases hpe : Pend (K := K) M.outAt (p.map Prod.fst) o.1
    · obtain ⟨q, o', hq, ho', he⟩ := pend_out hpe
      rw [← he]
      exact ⟨_, hnew q hq o' ho'⟩
    · rw [hfr _ (fun t => M.outs_global k o ho _ _) hpe]
      exact hE.2.1 k hk o ho
  · rcases List.mem_append.1 hd with hd | hd
    · rw [hfr _ (fun t => M.outs_global d.1 o ho _ _) ?_]
      · exact hE.2.2 d hd o ho
      · intro hpe
        obtain ⟨q, o', hq, ho', he⟩ := pend_out hpe
        exact M.outs_disjoint d.1 (hdn d hd) q.1 (hp q hq) (hne d hd q hq) o ho o' ho' he.symm
    · exact hnew d (by simpa using hd) o ho

/-- The phase that stores one result and accumulates for the next. -/
theorem start_phase (M : K.Sem s0 G) (hB : 0 < B) {done : List (Nat × Acc)}
    {p : Option (Nat × Acc)} {c : Nat → L} {k : Nat} (hk : k < K.numel)
    (hdn : ∀ d ∈ done, d.1 < K.numel) (hp : ∀ q, p = some q → q.1 < K.numel)
    (hne : ∀ d ∈ done, ∀ q, p = some q → d.1 ≠ q.1)
    {x : Fin B → L} {s : Mem RAddr (RCell V Acc)} (h : Begin M b B done p c x s) :
    PhaseRun (fun t : Fin B => (K.emit b t ((p.map Prod.fst).map M.outAt)).bind
        fun _ => K.fill b B t (K.idx k 0) (x t)) s
      (Mid M b B (done ++ p.toList) (fun t => (M.part B k t (c t)).2)
        fun t => (M.part B k t (c t)).1) := by
  obtain ⟨hx, hE, hsh, hroot⟩ := h
  have hp' : ∀ k, p.map Prod.fst = some k → k < K.numel := by
    intro k hk
    obtain ⟨q, hq, rfl⟩ := Option.map_eq_some_iff.1 hk
    exact hp q hq
  -- one thread
  have hrun : ∀ t : Fin B, ∃ s1, ((K.emit b t ((p.map Prod.fst).map M.outAt)).bind
        fun _ => K.fill b B t (K.idx k 0) (x t)).run s =
        .ok ((M.part B k t (c t)).1,
          Function.update s1 (.shared b t) (some (.acc (M.part B k t (c t)).2))) ∧
      (∀ a, ¬ ((t : Nat) = 0 ∧ Pend (K := K) M.outAt (p.map Prod.fst) a) → s1 a = s a) ∧
      ((t : Nat) = 0 → ∀ q, p = some q → ∀ o ∈ K.outs (M.outAt q.1),
        s1 o.1 = some (.val (o.2 q.2))) := by
    intro t
    obtain ⟨s1, h1, h2, h3⟩ := emit_run (b := b) M p t hp s hE.2.1 hroot
    refine ⟨s1, ?_, h2, h3⟩
    rw [Prog.run_bind, h1]
    simp only [Outcome.bind_ok]
    rw [fill_run M hB hk (x t) s1 ?_ ?_, hx t]
    · intro a ha
      rw [h2 a fun h => pend_not_in hp' h.2 ha]
      exact hE.1 a ha
    · rw [h2 _ fun h => pend_not_shared h.2]
      exact hsh t t.2
  refine ⟨fun t => beginX M b (p.map Prod.fst) t, fun t => beginW M b (p.map Prod.fst) t,
    ?_, ?_, ?_, ?_, ?_⟩
  · rintro t a (h | h)
    · exact .inl h
    · exact .inr (.inr h)
  · intro i j a hij hW
    exact begin_disjoint M hp' (fun h => hij (Fin.ext h)) hW
  · intro t
    refine Prog.Within.bind ?_ fun _ => ?_
    · refine (emit_within M.outAt (p.map Prod.fst) t).mono ?_ ?_
      · rintro a ⟨ht, rfl | h⟩
        · left; rw [ht]
        · exact .inr (.inr ⟨ht, h⟩)
      · rintro a h; exact .inr h
    · refine (fill_within M hk (x t)).mono ?_ ?_
      · rintro a (h | h)
        · exact .inl h
        · exact .inr (.inl h)
      · rintro a h; exact .inl h
  · intro t
    obtain ⟨s1, h1, _⟩ := hrun t
    exact ⟨_, h1⟩
  · intro y s' hag hfr
    have hy : ∀ t : Fin B, y t = (M.part B k t (c t)).1 ∧
        s' (.shared b t) = some (.acc (M.part B k t (c t)).2) ∧
        ((t : Nat) = 0 → ∀ q, p = some q → ∀ o ∈ K.outs (M.outAt q.1),
          s' o.1 = some (.val (o.2 q.2))) := by
      intro t
      obtain ⟨s1, h1, h2, h3⟩ := hrun t
      obtain ⟨u, hu, ha⟩ := hag t
      rw [h1] at hu
      have hu := Outcome.ok.inj hu
      have hu1 := congrArg Prod.fst hu
      have hu2 := congrArg Prod.snd hu
      simp only at hu1 hu2
      refine ⟨hu1.symm, ?_, ?_⟩
      · rw [ha _ (.inl rfl), ← hu2]; simp
      · intro ht q hq o ho
        have hpe : Pend (K := K) M.outAt (p.map Prod.fst) o.1 :=
          ⟨q.1, by rw [hq]; rfl, List.mem_map.2 ⟨o, ho, rfl⟩⟩
        rw [ha _ (.inr (.inr ⟨ht, hpe⟩)), ← hu2, Function.update_of_ne (M.outs_global _ o ho _ _)]
        exact h3 ht q hq o ho
    refine ⟨fun t => (hy t).1, ?_, fun t ht => (hy ⟨t, ht⟩).2.1⟩
    refine env_of (b := b) M hE hdn hp hne ?_ ((hy ⟨0, hB⟩).2.2 rfl)
    intro a ha hpe
    refine hfr a fun t h => ?_
    rcases h with h | ⟨_, h⟩
    · exact ha t h
    · exact hpe h

/-- The phase that stores the last result. -/
theorem last_phase (M : K.Sem s0 G) (hB : 0 < B) {done : List (Nat × Acc)}
    {p : Option (Nat × Acc)} {c : Nat → L}
    (hdn : ∀ d ∈ done, d.1 < K.numel) (hp : ∀ q, p = some q → q.1 < K.numel)
    (hne : ∀ d ∈ done, ∀ q, p = some q → d.1 ≠ q.1)
    {x : Fin B → L} {s : Mem RAddr (RCell V Acc)} (h : Begin M b B done p c x s) :
    PhaseRun (fun t : Fin B => (K.emit b t ((p.map Prod.fst).map M.outAt)).bind
        fun _ => .ret (x t)) s (fun _ s' => Env M (done ++ p.toList) s') := by
  obtain ⟨hx, hE, hsh, hroot⟩ := h
  have hp' : ∀ k, p.map Prod.fst = some k → k < K.numel := by
    intro k hk
    obtain ⟨q, hq, rfl⟩ := Option.map_eq_some_iff.1 hk
    exact hp q hq
  have hrun : ∀ t : Fin B, ∃ s1, ((K.emit b t ((p.map Prod.fst).map M.outAt)).bind
        fun _ => Prog.ret (x t)).run s = .ok (x t, s1) ∧
      ((t : Nat) = 0 → ∀ q, p = some q → ∀ o ∈ K.outs (M.outAt q.1),
        s1 o.1 = some (.val (o.2 q.2))) := by
    intro t
    obtain ⟨s1, h1, h2, h3⟩ := emit_run (b := b) M p t hp s hE.2.1 hroot
    refine ⟨s1, ?_, h3⟩
    rw [Prog.run_bind, h1]
    rfl
  refine ⟨fun t => beginX M b (p.map Prod.fst) t, fun t => beginW M b (p.map Prod.fst) t,
    ?_, ?_, ?_, ?_, ?_⟩
  · rintro t a (h | h)
    · exact .inl h
    · exact .inr (.inr h)
  · intro i j a hij hW
    exact begin_disjoint M hp' (fun h => hij (Fin.ext h)) hW
  · intro t
    refine Prog.Within.bind ?_ fun _ => .ret _
    refine (emit_within M.outAt (p.map Prod.fst) t).mono ?_ ?_
    · rintro a ⟨ht, rfl | h⟩
      · left; rw [ht]
      · exact .inr (.inr ⟨ht, h⟩)
    · rintro a h; exact .inr h
  · intro t
    obtain ⟨s1, h1, _⟩ := hrun t
    exact ⟨_, h1⟩
  · intro y s' hag hfr
    refine env_of (b := b) M hE hdn hp hne ?_ ?_
    · intro a ha hpe
      refine hfr a fun t h => ?_
      rcases h with h | ⟨_, h⟩
      · exact ha t h
      · exact hpe h
    · intro q hq o ho
      obtain ⟨s1, h1, h3⟩ := hrun ⟨0, hB⟩
      obtain ⟨u, hu, ha⟩ := hag ⟨0, hB⟩
      rw [h1] at hu
      have hu2 := congrArg Prod.snd (Outcome.ok.inj hu)
      simp only at hu2
      have hpe : Pend (K := K) M.outAt (p.map Prod.fst) o.1 :=
        ⟨q.1, by rw [hq]; rfl, List.mem_map.2 ⟨o, ho, rfl⟩⟩
      rw [ha _ (.inr (.inr ⟨rfl, hpe⟩)), ← hu2]
      exact h3 rfl q hq o ho

theorem env_frame (M : K.Sem s0 G) {done : List (Nat × Acc)} {s s' : Mem RAddr (RCell V Acc)}
    (hE : Env M done s) (hfr : ∀ a, (∀ t, a ≠ .shared b t) → s' a = s a) : Env M done s' := by
  refine ⟨fun a ha => ?_, fun k hk o ho => ?_, fun d hd o ho => ?_⟩
  · rw [hfr a (by rintro t rfl; exact not_in_shared M _ _ ha)]
    exact hE.1 a ha
  · rw [hfr _ fun t => M.outs_global k o ho _ _]
    exact hE.2.1 k hk o ho
  · rw [hfr _ fun t => M.outs_global d.1 o ho _ _]
    exact hE.2.2 d hd o ho

/-- One level of the tree. -/
theorem level_phase (M : K.Sem s0 G) {done : List (Nat × Acc)} {g : Nat → Acc} {c : Nat → L}
    {w : Nat} (hw : 2 * w ≤ B) {x : Fin B → L} {s : Mem RAddr (RCell V Acc)}
    (h : Mid M b B done g c x s) :
    PhaseRun (fun t : Fin B => K.treeLevel b w t (x t)) s
      (Mid M b B done (level K.merge g w) c) := by
  obtain ⟨hx, hE, hg⟩ := h
  have hrun : ∀ t : Fin B, ∃ s1, (K.treeLevel b w t (x t)).run s = .ok (x t, s1) ∧
      ((t : Nat) < w → s1 (.shared b t) = some (.acc (K.merge (g t) (g (t + w))))) ∧
      (¬ (t : Nat) < w → s1 = s) := by
    intro t
    by_cases ht : (t : Nat) < w
    · refine ⟨Function.update s (.shared b t) (some (.acc (K.merge (g t) (g (t + w))))), ?_, ?_, ?_⟩
      · simp only [treeLevel, ht, if_true, loadAcc, Prog.run, hg t t.2, hg (t + w) (by omega)]
      · intro _; simp
      · exact fun h => absurd ht h
    · exact ⟨s, by simp [treeLevel, ht, Prog.run], fun h => absurd h ht, fun _ => rfl⟩
  refine ⟨fun t a => (t : Nat) < w ∧ (a = .shared b t ∨ a = .shared b (t + w)),
    fun t a => (t : Nat) < w ∧ a = .shared b t, ?_, ?_, ?_, ?_, ?_⟩
  · rintro t a ⟨h1, h2⟩; exact ⟨h1, .inl h2⟩
  · rintro i j a hij ⟨hi, rfl⟩ ⟨hj, h | h⟩
    · simp only [RAddr.shared.injEq, true_and] at h
      exact hij (Fin.ext h)
    · simp only [RAddr.shared.injEq, true_and] at h
      omega
  · intro t
    simp only [treeLevel]
    split
    · rename_i ht
      refine Prog.Within.load ⟨ht, .inl rfl⟩ fun v => ?_
      cases v with
      | acc y =>
        refine Prog.Within.load ⟨ht, .inr rfl⟩ fun v => ?_
        cases v with
        | acc z => exact Prog.Within.store ⟨ht, rfl⟩ (.ret _)
        | val v => exact .fault
        | byte v => exact .fault
      | val v => exact .fault
      | byte v => exact .fault
    · exact .ret _
  · intro t
    obtain ⟨s1, h1, _⟩ := hrun t
    exact ⟨_, h1⟩
  · intro y s' hag hfr
    have hy : ∀ t : Fin B, y t = x t ∧
        ((t : Nat) < w → s' (.shared b t) = some (.acc (K.merge (g t) (g (t + w))))) := by
      intro t
      obtain ⟨s1, h1, h2, _⟩ := hrun t
      obtain ⟨u, hu, ha⟩ := hag t
      rw [h1] at hu
      have hu := Outcome.ok.inj hu
      have hu1 := congrArg Prod.fst hu
      have hu2 := congrArg Prod.snd hu
      simp only at hu1 hu2
      exact ⟨hu1.symm, fun ht => by rw [ha _ ⟨ht, .inl rfl⟩, ← hu2]; exact h2 ht⟩
    refine ⟨fun t => (hy t).1.trans (hx t), env_frame (b := b) M hE ?_, fun t ht => ?_⟩
    · intro a ha
      refine hfr a ?_
      rintro t ⟨_, h⟩
      exact ha t h
    · unfold level
      by_cases hlt : t < w
      · rw [if_pos hlt]
        exact (hy ⟨t, ht⟩).2 hlt
      · rw [if_neg hlt, hfr _ ?_]
        · exact hg t ht
        · rintro i ⟨hi, h⟩
          simp only [RAddr.shared.injEq, true_and] at h
          omega

theorem levels_ok (M : K.Sem s0 G) {done : List (Nat × Acc)} {g : Nat → Acc} {c : Nat → L}
    (ws : List Nat) (hw : ∀ w ∈ ws, 2 * w ≤ B) :
    PhasesOk (ws.map fun w => (K.treeLevel b w : Phase (Fin B) RAddr (RCell V Acc) L))
      (Mid M b B done g c) (Mid M b B done (ws.foldl (level K.merge) g) c) := by
  induction ws generalizing g with
  | nil => exact fun _ _ h => h
  | cons w ws ih =>
    exact ⟨Mid M b B done (level K.merge g w) c, fun x s h => level_phase M (hw w (by simp)) h,
      ih fun v hv => hw v (by simp [hv])⟩

theorem halvings_le (fuel s : Nat) : ∀ w ∈ halvings fuel s, w ≤ s := by
  induction fuel generalizing s with
  | zero => simp [halvings]
  | succ fuel ih =>
    simp only [halvings]
    split
    · simp
    · intro w hw
      rcases List.mem_cons.1 hw with rfl | hw
      · exact le_rfl
      · exact (ih _ w hw).trans (Nat.div_le_self _ _)

/-- All results of a block. -/
theorem rounds_ok (M : K.Sem s0 G) (hB : 0 < B) (ks : List Nat) (done : List (Nat × Acc))
    (p : Option (Nat × Acc)) (c : Nat → L) (hks : ∀ k ∈ ks, k < K.numel)
    (hdn : ∀ d ∈ done, d.1 < K.numel) (hp : ∀ q, p = some q → q.1 < K.numel)
    (hne : (done.map Prod.fst ++ (p.map Prod.fst).toList ++ ks).Nodup) :
    PhasesOk (roundsOf (K := K) M.outAt b B ks (p.map Prod.fst)) (Begin M b B done p c)
      (fun _ s => Env M (done ++ p.toList ++ M.results B ks c) s) := by
  have hne1 : ∀ d ∈ done, ∀ q, p = some q → d.1 ≠ q.1 := by
    intro d hd q hq he
    subst hq
    rw [List.append_assoc, List.nodup_append] at hne
    exact hne.2.2 d.1 (List.mem_map.2 ⟨d, hd, rfl⟩) q.1 (by simp) he
  induction ks generalizing done p c with
  | nil =>
    refine ⟨_, fun x s h => last_phase M hB hdn hp hne1 h, fun x s h => ?_⟩
    simpa [Sem.results] using h
  | cons k ks ih =>
    refine ⟨_, fun x s h => start_phase M hB (hks k (by simp)) hdn hp hne1 h, ?_⟩
    refine (levels_ok M _ fun w hw => ?_).append ?_ (R := Mid M b B (done ++ p.toList)
      ((halvings B (B / 2)).foldl (level K.merge) fun t => (M.part B k t (c t)).2)
      fun t => (M.part B k t (c t)).1)
    · have := halvings_le _ _ w hw
      omega
    · have hdn' : ∀ d ∈ done ++ p.toList, d.1 < K.numel := by
        intro d hd
        rcases List.mem_append.1 hd with hd | hd
        · exact hdn d hd
        · exact hp d (by simpa using hd)
      have hnd : ((done ++ p.toList).map Prod.fst ++
          ((some (k, M.total B k c)).map Prod.fst).toList ++ ks).Nodup := by
        cases p with
        | none => simpa using hne
        | some q => simpa using hne
      have hne2 : ∀ d ∈ done ++ p.toList, ∀ q, some (k, M.total B k c) = some q → d.1 ≠ q.1 := by
        intro d hd q hq he
        cases hq
        rw [List.append_assoc, List.nodup_append] at hnd
        exact hnd.2.2 d.1 (List.mem_map.2 ⟨d, hd, rfl⟩) k (by simp) he
      have key := ih (done ++ p.toList) (some (k, M.total B k c))
        (fun t => (M.part B k t (c t)).1) (fun j hj => hks j (by simp [hj])) hdn'
        (fun q hq => by cases hq; exact hks k (by simp)) hnd hne2
      have weak : ∀ {ps : List (Phase (Fin B) RAddr (RCell V Acc) L)}
          {P P' Q Q' : (Fin B → L) → Mem RAddr (RCell V Acc) → Prop},
          (∀ x s, P' x s → P x s) → (∀ x s, Q x s → Q' x s) → PhasesOk ps P Q →
          PhasesOk ps P' Q' := by
        intro ps
        induction ps with
        | nil => exact fun h1 h2 h x s hP => h2 x s (h x s (h1 x s hP))
        | cons q ps ih =>
          intro P P' Q Q' h1 h2 ⟨R, h3, h4⟩
          exact ⟨R, fun x s hP => h3 x s (h1 x s hP), ih (fun _ _ h => h) h2 h4⟩
      refine weak ?_ ?_ key
      · rintro x s ⟨h1, h2, h3⟩
        refine ⟨h1, h2, fun t ht => ⟨_, h3 t ht⟩, fun q hq => ?_⟩
        cases hq
        exact h3 0 hB
      · intro x s h
        simpa [Sem.results] using h

/-! ## The launch -/

/-- What block `b` may touch when it computes the results `ks`. -/
def blockX (M : K.Sem s0 G) (b : Nat) (ks : List Nat) (a : RAddr) : Prop :=
  (∃ t, a = .shared b t) ∨ M.In a ∨ ∃ k ∈ ks, a ∈ (K.outs (M.outAt k)).map Prod.fst

/-- What it may write. -/
def blockW (M : K.Sem s0 G) (b : Nat) (ks : List Nat) (a : RAddr) : Prop :=
  (∃ t, a = .shared b t) ∨ ∃ k ∈ ks, a ∈ (K.outs (M.outAt k)).map Prod.fst

theorem treeLevel_within {X W : RAddr → Prop} (w : Nat) (hX : ∀ t, X (.shared b t))
    (hW : ∀ t, W (.shared b t)) (t : Fin B) (c : L) :
    Prog.Within X W (K.treeLevel b w t c) := by
  simp only [treeLevel]
  split
  · refine Prog.Within.load (hX _) fun v => ?_
    cases v with
    | acc y =>
      refine Prog.Within.load (hX _) fun v => ?_
      cases v with
      | acc z => exact Prog.Within.store (hW _) (.ret _)
      | val v => exact .fault
      | byte v => exact .fault
    | val v => exact .fault
    | byte v => exact .fault
  · exact .ret _

theorem treeLevel_bounded (w : Nat) (t : Fin B) (c : L) :
    Prog.Bounded 3 (K.treeLevel b w t c) := by
  simp only [treeLevel]
  split
  · refine Prog.Bounded.load fun v => ?_
    cases v with
    | acc y =>
      refine Prog.Bounded.load fun v => ?_
      cases v with
      | acc z => exact Prog.Bounded.store (.ret 0 _)
      | val v => exact .fault _
      | byte v => exact .fault _
    | val v => exact .fault _
    | byte v => exact .fault _
  · exact .ret _ _

theorem rounds_within (M : K.Sem s0 G) (all ks : List Nat) (p : Option Nat)
    (hks : ∀ k ∈ ks, k < K.numel ∧ k ∈ all) (hp : ∀ k, p = some k → k ∈ all) :
    ∀ q ∈ roundsOf (K := K) M.outAt b B ks p, ∀ i y,
      Prog.Within (blockX M b all) (blockW M b all) (q i y) := by
  have hemit : ∀ (p : Option Nat), (∀ k, p = some k → k ∈ all) → ∀ t : Nat,
      Prog.Within (blockX M b all) (blockW M b all) (K.emit b t (p.map M.outAt)) := by
    intro p hp t
    refine (emit_within M.outAt p t).mono ?_ ?_
    · rintro a ⟨_, rfl | ⟨k, hk, ha⟩⟩
      · exact .inl ⟨0, rfl⟩
      · exact .inr (.inr ⟨k, hp k hk, ha⟩)
    · rintro a ⟨_, k, hk, ha⟩
      exact .inr ⟨k, hp k hk, ha⟩
  induction ks generalizing p with
  | nil =>
    intro q hq i y
    simp only [roundsOf, List.mem_singleton] at hq
    subst hq
    exact (hemit p hp i).bind fun _ => .ret _
  | cons k ks ih =>
    intro q hq i y
    simp only [roundsOf, List.mem_cons, List.mem_append] at hq
    rcases hq with rfl | hq | hq
    · refine (hemit p hp i).bind fun _ => (fill_within M (hks k (by simp)).1 y).mono ?_ ?_
      · rintro a (rfl | h)
        · exact .inl ⟨_, rfl⟩
        · exact .inr (.inl h)
      · rintro a rfl; exact .inl ⟨_, rfl⟩
    · obtain ⟨w, _, rfl⟩ := List.mem_map.1 hq
      exact treeLevel_within w (fun t => .inl ⟨t, rfl⟩) (fun t => .inl ⟨t, rfl⟩) i y
    · refine ih (some k) (fun j hj => hks j (by simp [hj])) ?_ q hq i y
      intro j hj
      cases hj
      exact (hks k (by simp)).2

theorem rounds_bounded (M : K.Sem s0 G) (ks : List Nat) (p : Option Nat) :
    ∀ q ∈ roundsOf (K := K) M.outAt b B ks p, Phase.Bounded q := by
  induction ks generalizing p with
  | nil =>
    intro q hq
    simp only [roundsOf, List.mem_singleton] at hq
    subst hq
    obtain ⟨m, hm⟩ := emit_bounded (K := K) (b := b) (p.map M.outAt)
    exact ⟨m + 0, fun i y => (hm i).bind fun _ => .ret _ _⟩
  | cons k ks ih =>
    intro q hq
    simp only [roundsOf, List.mem_cons, List.mem_append] at hq
    rcases hq with rfl | hq | hq
    · obtain ⟨m, hm⟩ := emit_bounded (K := K) (b := b) (p.map M.outAt)
      obtain ⟨m', hm'⟩ := fill_bounded (b := b) (B := B) M (K.idx k 0)
      exact ⟨m + m', fun i y => (hm i).bind fun _ => hm' i y⟩
    · obtain ⟨w, _, rfl⟩ := List.mem_map.1 hq
      exact ⟨3, fun i y => treeLevel_bounded w i y⟩
    · exact ih (some k) q hq

theorem blockSize_pow {n : Nat} (hn : 0 < n) : ∃ m, m ≤ 9 ∧ blockSize n = 2 ^ m := by
  by_cases h : n < 512
  · have : ∀ n : Fin 512, 0 < n.1 → ∃ m ≤ 9, blockSize n.1 = 2 ^ m := by decide +kernel
    exact this ⟨n, h⟩ hn
  · exact ⟨9, le_rfl, by simp [blockSize, h]⟩

/-- **The launch.** No schedule has undefined behaviour, every schedule terminates, some schedule
completes, and every complete schedule stores the results computed by the threads of each block one
after the other, and changes nothing else. -/
theorem reduce_launch (M : K.Sem s0 (gridSize K.numel)) (hn : 0 < K.n)
    (hsh : ∀ b < gridSize K.numel, ∀ t < blockSize K.n, ∃ v, s0 (.shared b t) = some v) :
    ¬ Exec BlockStep K.blocks s0 .ub ∧ Terminates BlockStep K.blocks s0 ∧
    (∃ s', Completes BlockStep K.blocks s0 s') ∧
    ∀ s', Completes BlockStep K.blocks s0 s' →
      (∀ b < gridSize K.numel, ∀ d ∈ M.results (blockSize K.n)
          (gridStride (gridSize K.numel) K.numel b) (fun _ => K.comp),
        ∀ o ∈ K.outs (M.outAt d.1), s' o.1 = some (.val (o.2 d.2))) ∧
      ∀ a, (∀ b t, a ≠ .shared b t) →
        (∀ k < K.numel, ∀ o ∈ K.outs (M.outAt k), a ≠ o.1) → s' a = s0 a := by
  obtain ⟨m, _, hm⟩ := blockSize_pow hn
  have hB : 0 < blockSize K.n := by rw [hm]; exact Nat.two_pow_pos m
  by_cases h0 : K.numel = 0
  · -- nothing to do: no blocks
    have hg : gridSize K.numel = 0 := by simp [gridSize, h0]
    have hemp : IsEmpty (Fin (gridSize K.numel)) := by rw [hg]; exact Fin.isEmpty
    have hno : ∀ o, Exec BlockStep K.blocks s0 o → o = .ok (K.blocks, s0) := by
      intro o h
      cases h with
      | stop => rfl
      | step i _ _ => exact hemp.elim i
      | fault i _ => exact hemp.elim i
    refine ⟨fun h => (by cases hno _ h), ?_, ⟨s0, K.blocks, .stop _ _, fun i => hemp.elim i⟩, ?_⟩
    · rintro ⟨f, _, hf⟩
      obtain ⟨i, _⟩ := hf 0
      exact hemp.elim i
    · rintro s' ⟨ls', hx, _⟩
      have := Outcome.ok.inj (hno _ hx)
      have hs : s' = s0 := congrArg Prod.snd this
      subst hs
      exact ⟨fun b hb => by omega, fun _ _ _ => rfl⟩
  have hG : 0 < gridSize K.numel := by unfold gridSize; omega
  have hGn : gridSize K.numel ≤ K.numel := by unfold gridSize; omega
  have hbl : ∀ b : Fin (gridSize K.numel), K.phases b (blockSize K.n) (gridSize K.numel) =
      roundsOf (K := K) M.outAt b (blockSize K.n)
        (gridStride (gridSize K.numel) K.numel b) none := fun b =>
    phases_eq M hG (by have := b.2; omega)
  have hks : ∀ b, ∀ k ∈ gridStride (gridSize K.numel) K.numel b, k < K.numel := fun b k hk =>
    ((mem_gridStride hG).1 hk).1
  have hown : ∀ b c : Fin (gridSize K.numel), b ≠ c → ∀ k ∈ gridStride (gridSize K.numel) K.numel b,
      ∀ k' ∈ gridStride (gridSize K.numel) K.numel c, k ≠ k' := by
    rintro b c hbc k hk k' hk' rfl
    have h1 := gridStride_owner hG b.2 hk
    have h2 := gridStride_owner hG c.2 hk'
    exact hbc (Fin.ext (h1.trans h2.symm))
  obtain ⟨h1, h2, h3, h4⟩ := block_launch (β := Fin (gridSize K.numel))
    (phases := fun b => K.phases b (blockSize K.n) (gridSize K.numel))
    (X := fun b => blockX M b (gridStride (gridSize K.numel) K.numel b))
    (W := fun b => blockW M b (gridStride (gridSize K.numel) K.numel b))
    (x := fun _ _ => K.comp) (s := s0)
    (P := fun b => Begin M b (blockSize K.n) [] none fun _ => K.comp)
    (Q := fun b _ s => Env M (M.results (blockSize K.n)
      (gridStride (gridSize K.numel) K.numel b) fun _ => K.comp) s)
    (by
      rintro b a (h | h)
      · exact .inl h
      · exact .inr (.inr h))
    (by
      rintro b c a hbc (⟨t, rfl⟩ | ⟨k, hk, ha⟩)
      · rintro (⟨t', h⟩ | h | ⟨k, hk, ha⟩)
        · simp only [RAddr.shared.injEq] at h
          exact hbc (Fin.ext h.1)
        · exact not_in_shared M _ _ h
        · obtain ⟨o, ho, he⟩ := List.mem_map.1 ha
          exact M.outs_global _ o ho _ _ he
      · obtain ⟨o, ho, rfl⟩ := List.mem_map.1 ha
        rintro (⟨t', h⟩ | ⟨k', hk', r, hr, h⟩ | ⟨k', hk', ha'⟩)
        · exact M.outs_global _ o ho _ _ h
        · exact M.outs_read k (hks _ k hk) o ho k' hk' r hr h
        · obtain ⟨o', ho', he⟩ := List.mem_map.1 ha'
          exact M.outs_disjoint k (hks _ k hk) k' (hks _ k' hk') (hown b c hbc k hk k' hk') o ho o'
            ho' he.symm)
    (by
      intro b p hp i y
      rw [hbl b] at hp
      exact rounds_within M _ _ none (fun k hk => ⟨hks _ k hk, hk⟩) (fun k hk => by cases hk) p hp i y)
    (by
      intro b p hp
      rw [hbl b] at hp
      exact rounds_bounded M _ none p hp)
    (by
      intro b
      rw [hbl b]
      have := rounds_ok (b := b) M hB (gridStride (gridSize K.numel) K.numel b) [] none
        (fun _ => K.comp) (hks b) (by simp) (by simp) (by simpa using gridStride_nodup hG)
      simpa using this)
    (by
      intro b
      refine ⟨fun _ => rfl, ⟨Agree.refl _ _, M.outs_mapped, by simp⟩, hsh b b.2, by simp⟩)
  refine ⟨h1, h2, h3, fun s' hs' => ?_⟩
  obtain ⟨h5, h6⟩ := h4 s' hs'
  refine ⟨fun b hb d hd o ho => ?_, fun a ha ho => h6 a ?_⟩
  · obtain ⟨y, t, hQ, hag, _⟩ := h5 ⟨b, hb⟩
    have hd' : d.1 ∈ gridStride (gridSize K.numel) K.numel b := by
      have : ∀ (ks : List Nat) (c : Nat → L), d ∈ M.results (blockSize K.n) ks c → d.1 ∈ ks := by
        intro ks
        induction ks with
        | nil => intro c h; cases h
        | cons k ks ih =>
          intro c h
          rcases List.mem_cons.1 h with rfl | h
          · simp
          · exact List.mem_cons_of_mem _ (ih _ h)
      exact this _ _ hd
    rw [hag o.1 (.inr (.inr ⟨d.1, hd', List.mem_map.2 ⟨o, ho, rfl⟩⟩))]
    exact hQ.2.2 d hd o ho
  · rintro b (⟨t, h⟩ | ⟨k, hk, h⟩)
    · exact ha _ _ h
    · obtain ⟨o, ho', he⟩ := List.mem_map.1 h
      exact ho k (hks _ k hk) o ho' he.symm

/-- If the registers come back to their initial value, every result is computed from the same
start. -/
theorem results_fixed (M : K.Sem s0 G) (hc : ∀ k t, (M.part B k t K.comp).1 = K.comp)
    (ks : List Nat) :
    M.results B ks (fun _ => K.comp) = ks.map fun k => (k, M.total B k fun _ => K.comp) := by
  induction ks with
  | nil => rfl
  | cons k ks ih => simp only [Sem.results, List.map_cons, hc, ih]

/-! ## The tree adds up all cells -/

theorem halvings_pow (m fuel : Nat) :
    halvings (fuel + 1) (2 ^ m) = 2 ^ m :: halvings fuel (2 ^ m / 2) := by
  simp [halvings]

/-- The root of the tree is the fold of all cells, in any order. -/
theorem root_fold (op : Acc → Acc → Acc) (e : Acc) [Std.Associative op] [Std.Commutative op]
    (he : ∀ x, op x e = x) (m fuel : Nat) (hf : m ≤ fuel) (g : Nat → Acc) :
    (halvings fuel (2 ^ m / 2)).foldl (level op) g 0 =
      ((List.range (2 ^ m)).map g).foldr op e := by
  induction m generalizing fuel g with
  | zero =>
    have : halvings fuel (2 ^ 0 / 2) = [] := by cases fuel <;> simp [halvings]
    rw [this]
    simp [he]
  | succ m ih =>
    obtain ⟨fuel, rfl⟩ : ∃ k, fuel = k + 1 := ⟨fuel - 1, by omega⟩
    have h2 : 2 ^ (m + 1) / 2 = 2 ^ m := by rw [pow_succ]; simp
    rw [h2, halvings_pow m fuel, List.foldl_cons, ih fuel (by omega)]
    have e1 : (List.range (2 ^ m)).map (level op g (2 ^ m)) =
        (List.range (2 ^ m)).map fun t => op (g t) (g (t + 2 ^ m)) := by
      apply List.map_congr_left
      intro t ht
      simp [level, List.mem_range.1 ht]
    rw [e1, pow_succ, Nat.mul_two, List.range_add, List.map_append, List.map_map, List.foldr_append]
    have key : ∀ (l : List Nat) (u : Acc),
        (l.map g).foldr op ((l.map fun t => g (t + 2 ^ m)).foldr op u) =
          (l.map fun t => op (g t) (g (t + 2 ^ m))).foldr op u := by
      intro l u
      induction l with
      | nil => rfl
      | cons x xs ih =>
        simp only [List.map_cons, List.foldr_cons]
        rw [← ih]
        have h3 : ∀ (l : List Acc) (a b : Acc), l.foldr op (op a b) = op a (l.foldr op b) := by
          intro l a b
          induction l with
          | nil => rfl
          | cons y ys ih =>
            simp only [List.foldr_cons, ih]
            rw [← Std.Associative.assoc (op := op), Std.Commutative.comm (op := op) y a,
              Std.Associative.assoc (op := op)]
        rw [h3, ← Std.Associative.assoc (op := op)]
    have e2 : (List.range (2 ^ m)).map (g ∘ fun x => 2 ^ m + x) =
        (List.range (2 ^ m)).map fun t => g (t + 2 ^ m) := by
      apply List.map_congr_left
      intro t _
      simp [Nat.add_comm]
    rw [e2, key]

/-- The parts of the threads together are all elements. -/
theorem gridStride_perm {B n : Nat} (hB : 0 < B) :
    ((List.range B).flatMap fun t => gridStride B n t).Perm (List.range n) := by
  refine (List.perm_ext_iff_of_nodup ?_ List.nodup_range).2 ?_
  · rw [List.nodup_flatMap]
    refine ⟨fun t _ => gridStride_nodup hB, ?_⟩
    refine List.Pairwise.imp_of_mem ?_ (List.nodup_range (n := B))
    intro t t' ht ht' hne r hr hr'
    exact hne ((gridStride_owner hB (List.mem_range.1 ht) hr).trans
      (gridStride_owner hB (List.mem_range.1 ht') hr').symm)
  · intro r
    simp only [List.mem_flatMap, List.mem_range]
    constructor
    · rintro ⟨t, _, h⟩
      exact ((mem_gridStride hB).1 h).1
    · intro h
      exact ⟨r % B, Nat.mod_lt _ hB, mem_gridStride_mod hB h⟩

/-- A kernel that accumulates with a commutative operation: the accumulator of a result is the fold
of its elements, in any order. -/
theorem total_fold (M : K.Sem s0 G) (op : Acc → Acc → Acc) [Std.Associative op]
    [Std.Commutative op] (he : ∀ x, op x K.zero = x) (hm : K.merge = op)
    (hφ : ∀ x y, K.norm (op x y) = op (K.norm x) (K.norm y)) (hφ0 : K.norm K.zero = K.zero)
    (v : List Nat → Acc) (hf : ∀ i x, M.f i K.comp x = (K.comp, op x (v i)))
    (hn : 0 < K.n) (k : Nat) :
    M.total (blockSize K.n) k (fun _ => K.comp) =
      K.norm (((List.range K.n).map fun r => v (K.idx k r)).foldr op K.zero) ∧
    ∀ t, (M.part (blockSize K.n) k t K.comp).1 = K.comp := by
  have hacc : ∀ (l : List Nat) (x : Acc), M.accum k l K.comp x =
      (K.comp, op x ((l.map fun r => v (K.idx k r)).foldr op K.zero)) := by
    intro l
    induction l with
    | nil => intro x; simp [Sem.accum, he]
    | cons r rs ih =>
      intro x
      simp only [Sem.accum, hf, ih, List.map_cons, List.foldr_cons]
      rw [Std.Associative.assoc (op := op)]
  have he' : ∀ x, op K.zero x = x := fun x => by rw [Std.Commutative.comm (op := op), he]
  refine ⟨?_, fun t => by simp [Sem.part, hacc]⟩
  obtain ⟨m, _, hmb⟩ := blockSize_pow hn
  have hB : 0 < blockSize K.n := by rw [hmb]; exact Nat.two_pow_pos m
  unfold Sem.total root
  rw [hm]
  have hfuel : m ≤ blockSize K.n := by rw [hmb]; exact Nat.lt_two_pow_self.le
  have := root_fold op K.zero he m (blockSize K.n) hfuel
    (fun t => (M.part (blockSize K.n) k t K.comp).2)
  rw [← hmb] at this
  rw [this]
  have hnorm : ∀ l : List Acc, K.norm (l.foldr op K.zero) = (l.map K.norm).foldr op K.zero := by
    intro l
    induction l with
    | nil => simpa using hφ0
    | cons x xs ih => simp [hφ, ih]
  have hcat : ∀ (l : List (List Acc)), (l.map fun x => x.foldr op K.zero).foldr op K.zero =
      l.flatten.foldr op K.zero := by
    intro l
    induction l with
    | nil => rfl
    | cons x xs ih =>
      simp only [List.map_cons, List.foldr_cons, ih, List.flatten_cons, List.foldr_append]
      have : ∀ (x : List Acc) (u : Acc), op (x.foldr op K.zero) u = x.foldr op u := by
        intro x u
        induction x with
        | nil => exact he' u
        | cons y ys ih => simp only [List.foldr_cons, Std.Associative.assoc (op := op), ih]
      exact this _ _
  have e1 : ((List.range (blockSize K.n)).map fun t => (M.part (blockSize K.n) k t K.comp).2) =
      ((List.range (blockSize K.n)).map fun t =>
        ((gridStride (blockSize K.n) K.n t).map fun r => K.norm (v (K.idx k r)))).map
        fun x => x.foldr op K.zero := by
    rw [List.map_map]
    apply List.map_congr_left
    intro t _
    simp only [Sem.part, hacc, Function.comp_apply, hnorm, he', List.map_map]
    rfl
  rw [e1, hcat, hnorm, List.map_map]
  have e2 : ((List.range (blockSize K.n)).map fun t =>
        ((gridStride (blockSize K.n) K.n t).map fun r => K.norm (v (K.idx k r)))).flatten =
      ((List.range (blockSize K.n)).flatMap fun t => gridStride (blockSize K.n) K.n t).map
        fun r => K.norm (v (K.idx k r)) := by
    rw [List.map_flatMap, List.flatMap_def]
  rw [e2]
  have : LeftCommutative op := ⟨fun a b c => by
    rw [← Std.Associative.assoc (op := op), Std.Commutative.comm (op := op) a b,
      Std.Associative.assoc (op := op)]⟩
  exact ((gridStride_perm hB).map _).foldr_eq _

end RKernel

end Bliss.Gpu
