import Verif.Gpu.ReduceIndex

/-!
# What a reduction kernel leaves, whatever the schedule
-/

namespace Bliss.Gpu

open Bliss.Nd

variable {V Acc L σ : Type}

namespace RKernel

variable (K : RKernel V Acc L σ)

/-- The multi-index of element `r` of result `k`. -/
def idx (k r : Nat) : List Nat := (digits K.shape K.flags r k).1

/-- What the items of a kernel compute from the memory `s0` at launch. -/
structure Sem (s0 : Mem RAddr (RCell V Acc)) (G : Nat) where
  /-- the addresses an item reads -/
  reads : List Nat → RAddr → Prop
  /-- what it computes -/
  f : List Nat → L → Acc → L × Acc
  /-- where result `k` goes, and how it is computed from the accumulator -/
  outAt : Nat → σ
  pos : ∀ s ∈ K.shape, 0 < s
  rank : K.shape.length ≤ 4 ∧ K.outRank ≤ 4
  within : ∀ i c x, Prog.Within (reads i) (fun _ => False) (K.item i c x)
  bounded : ∃ m, ∀ i c x, Prog.Bounded m (K.item i c x)
  run : ∀ k < K.numel, ∀ r < K.n, ∀ c x, ∀ s, Agree (reads (K.idx k r)) s s0 →
    (K.item (K.idx k r) c x).run s = .ok (f (K.idx k r) c x, s)
  first_eq : ∀ b < K.numel, K.first b = outAt b
  next_eq : ∀ k, k + G < K.numel → K.next G (outAt k) = outAt (k + G)
  reads_global : ∀ i b t, ¬ reads i (.shared b t)
  outs_global : ∀ k, ∀ p ∈ K.outs (outAt k), ∀ b t, p.1 ≠ .shared b t
  outs_read : ∀ k < K.numel, ∀ p ∈ K.outs (outAt k), ∀ k' < K.numel, ∀ r < K.n,
    ¬ reads (K.idx k' r) p.1
  outs_mapped : ∀ k < K.numel, ∀ p ∈ K.outs (outAt k), ∃ c, s0 p.1 = some c
  outs_nodup : ∀ k < K.numel, ((K.outs (outAt k)).map Prod.fst).Nodup
  outs_disjoint : ∀ k < K.numel, ∀ k' < K.numel, k ≠ k' → ∀ p ∈ K.outs (outAt k),
    ∀ q ∈ K.outs (outAt k'), p.1 ≠ q.1

variable {K} {s0 : Mem RAddr (RCell V Acc)} {G B b : Nat}

namespace Sem

variable (M : K.Sem s0 G)

/-- The inputs of the launch. -/
def In (a : RAddr) : Prop := ∃ k < K.numel, ∃ r < K.n, M.reads (K.idx k r) a

/-- What thread `t` has accumulated over a list of elements. -/
def accum (k : Nat) : List Nat → L → Acc → L × Acc
  | [], c, x => (c, x)
  | r :: rs, c, x => accum k rs (M.f (K.idx k r) c x).1 (M.f (K.idx k r) c x).2

/-- What thread `t` of `B` has in its registers and in its cell at the first barrier of result
`k`. -/
def part (B k t : Nat) (c : L) : L × Acc :=
  ((M.accum k (gridStride B K.n t) c K.zero).1,
    K.norm (M.accum k (gridStride B K.n t) c K.zero).2)

end Sem

/-- One level of the tree on the values of the cells. -/
def level (merge : Acc → Acc → Acc) (g : Nat → Acc) (s : Nat) : Nat → Acc := fun t =>
  if t < s then merge (g t) (g (t + s)) else g t

/-- The root of the tree of `B` cells. -/
def root (merge : Acc → Acc → Acc) (B : Nat) (g : Nat → Acc) : Acc :=
  (halvings B (B / 2)).foldl (level merge) g 0

namespace Sem

variable (M : K.Sem s0 G)

/-- The accumulator of result `k` when the registers of the threads hold `c`. -/
def total (B k : Nat) (c : Nat → L) : Acc := root K.merge B fun t => (M.part B k t (c t)).2

/-- The results of a block, with their accumulators, in order. -/
def results (B : Nat) : List Nat → (Nat → L) → List (Nat × Acc)
  | [], _ => []
  | k :: ks, c => (k, M.total B k c) :: results B ks fun t => (M.part B k t (c t)).1

end Sem

/-! ## The walk of the indices -/

/-- The phases of a block that computes the results `ks`. -/
def roundsOf (outAt : Nat → σ) (b B : Nat) : List Nat → Option Nat →
    List (Phase (Fin B) RAddr (RCell V Acc) L)
  | [], p => [fun t c => (K.emit b t (p.map outAt)).bind fun _ => .ret c]
  | k :: ks, p =>
    (fun t c => (K.emit b t (p.map outAt)).bind fun _ => K.fill b B t (K.idx k 0) c) ::
      (K.tree b B ++ roundsOf outAt b B ks (some k))

theorem rounds_eq (M : K.Sem s0 G) (hG : 0 < G) (fuel i : Nat) (o : σ) (p : Option Nat)
    (hfuel : K.numel ≤ i + fuel) (ho : i < K.numel → o = M.outAt i) :
    K.rounds b B G fuel i o (K.idx i 0) (p.map M.outAt) =
      roundsOf (K := K) M.outAt b B (strideFrom G K.numel fuel i) p := by
  induction fuel generalizing i o p with
  | zero =>
    have : ¬ i < K.numel := by omega
    simp [rounds, strideFrom, this, roundsOf]
  | succ fuel ih =>
    by_cases hi : i < K.numel
    · simp only [rounds, hi, if_true, strideFrom, roundsOf]
      have e : (advanceAxes false K.shape K.flags (K.idx i 0) G).1 = K.idx (i + G) 0 := by
        unfold idx
        rw [advance_kept K.shape K.flags 0 i G M.pos]
      have ho' := ho hi
      rw [e, show (some o : Option σ) = (some i).map M.outAt by rw [ho']; rfl,
        ih (i + G) (K.next G o) (some i) (by omega) (fun h => by rw [ho', M.next_eq i h])]
    · simp [rounds, strideFrom, hi, roundsOf]

theorem phases_eq (M : K.Sem s0 G) (hG : 0 < G) (hb : b < K.numel) :
    K.phases b B G = roundsOf (K := K) M.outAt b B (gridStride G K.numel b) none := by
  unfold phases
  have h1 := M.rank
  rw [if_neg (by omega), gridStride_eq]
  have := rounds_eq (b := b) (B := B) M hG K.numel b (K.first b) none (by omega)
    (fun h => M.first_eq b h)
  rw [← this]
  congr 1
  exact (startAxes_eq K.shape K.flags b).1

/-! ## Threads alone -/

theorem fillLoop_run (M : K.Sem s0 G) (a : RAddr) (hB : 0 < B) {k : Nat} (hk : k < K.numel)
    (ha : ¬ M.In a) (fuel jj : Nat) (c : L) (x : Acc) (s : Mem RAddr (RCell V Acc))
    (hfuel : K.n ≤ jj + fuel) (hs : Agree M.In s s0) (hx : s a = some (.acc x)) :
    (K.fillLoop a B fuel jj (K.idx k jj) c).run s =
      .ok ((M.accum k (strideFrom B K.n fuel jj) c x).1,
        Function.update s a (some (.acc (M.accum k (strideFrom B K.n fuel jj) c x).2))) := by
  induction fuel generalizing jj c x s with
  | zero =>
    have : ¬ jj < K.n := by omega
    simp only [fillLoop, this, if_false, strideFrom, Sem.accum, Prog.run]
    rw [← hx, Function.update_eq_self]
  | succ fuel ih =>
    by_cases hj : jj < K.n
    · simp only [fillLoop, hj, if_true, loadAcc, Prog.run, hx, strideFrom, Sem.accum]
      have hr := M.run k hk jj hj c x s fun a' h' => hs a' ⟨k, hk, jj, hj, h'⟩
      rw [Prog.run_bind, hr]
      simp only [Outcome.bind_ok, Prog.run, hx]
      have e : (advanceAxes true K.shape K.flags (K.idx k jj) B).1 = K.idx k (jj + B) := by
        unfold idx
        rw [advance_reduced K.shape K.flags jj k B M.pos]
      rw [e, ih (jj + B) _ (M.f (K.idx k jj) c x).2 _ (by omega) ?_ (by simp)]
      · rw [Function.update_idem]
      · intro a' h'
        rw [Function.update_of_ne (by rintro rfl; exact ha h')]
        exact hs a' h'
    · simp only [fillLoop, hj, if_false, strideFrom, Sem.accum, Prog.run]
      rw [← hx, Function.update_eq_self]

theorem fillLoop_within (M : K.Sem s0 G) (a : RAddr) {k : Nat} (hk : k < K.numel)
    (fuel jj : Nat) (c : L) :
    Prog.Within (fun a' => a' = a ∨ M.In a') (fun a' => a' = a)
      (K.fillLoop a B fuel jj (K.idx k jj) c) := by
  induction fuel generalizing jj c with
  | zero => simp only [fillLoop]; split <;> constructor
  | succ fuel ih =>
    simp only [fillLoop]
    split
    · rename_i hj
      refine Prog.Within.load (.inl rfl) fun v => ?_
      cases v with
      | acc x =>
        refine Prog.Within.bind ((M.within _ c x).mono (fun a' h' => .inr ⟨k, hk, jj, hj, h'⟩)
          (fun _ h => h.elim)) fun r => Prog.Within.store rfl ?_
        have e : (advanceAxes true K.shape K.flags (K.idx k jj) B).1 = K.idx k (jj + B) := by
          unfold idx
          rw [advance_reduced K.shape K.flags jj k B M.pos]
        rw [e]
        exact ih _ _
      | val v => exact .fault
      | byte v => exact .fault
    · constructor

theorem fillLoop_bounded (M : K.Sem s0 G) :
    ∀ fuel, ∃ m, ∀ a jj i c, Prog.Bounded m (K.fillLoop a B fuel jj i c) := by
  obtain ⟨mi, hmi⟩ := M.bounded
  intro fuel
  induction fuel with
  | zero =>
    refine ⟨0, fun a jj i c => ?_⟩
    simp only [fillLoop]; split <;> constructor
  | succ fuel ih =>
    obtain ⟨m, hm⟩ := ih
    refine ⟨(mi + (m + 1)) + 1, fun a jj i c => ?_⟩
    simp only [fillLoop]
    split
    · refine Prog.Bounded.load fun v => ?_
      cases v with
      | acc x => exact (hmi i c x).bind fun r => Prog.Bounded.store (hm _ _ _ _)
      | val v => exact .fault _
      | byte v => exact .fault _
    · constructor

theorem fill_run (M : K.Sem s0 G) (hB : 0 < B) {k t : Nat} (hk : k < K.numel) (c : L)
    (s : Mem RAddr (RCell V Acc)) (hs : Agree M.In s s0) (hx : ∃ x, s (.shared b t) = some x) :
    (K.fill b B t (K.idx k 0) c).run s =
      .ok ((M.part B k t c).1,
        Function.update s (.shared b t) (some (.acc (M.part B k t c).2))) := by
  obtain ⟨x, hx⟩ := hx
  have hIn : ¬ M.In (.shared b t) := by
    rintro ⟨_, _, _, _, h⟩
    exact M.reads_global _ _ _ h
  simp only [fill, Prog.run, hx]
  have e : (advanceAxes true K.shape K.flags (K.idx k 0) t).1 = K.idx k t := by
    unfold idx
    have := advance_reduced K.shape K.flags 0 k t M.pos
    rw [Nat.zero_add] at this
    rw [this]
  rw [e, Prog.run_bind, fillLoop_run M (.shared b t) hB hk hIn K.n t c K.zero _ (by omega) ?_ (by simp)]
  · simp only [Outcome.bind_ok, loadAcc, Prog.run, Function.update_self, Function.update_idem]
    unfold Sem.part
    rw [gridStride_eq]
  · intro a' h'
    rw [Function.update_of_ne (by rintro rfl; exact hIn h')]
    exact hs a' h'

theorem fill_within (M : K.Sem s0 G) {k t : Nat} (hk : k < K.numel) (c : L) :
    Prog.Within (fun a' => a' = .shared b t ∨ M.In a') (fun a' => a' = .shared b t)
      (K.fill b B t (K.idx k 0) c) := by
  have e : (advanceAxes true K.shape K.flags (K.idx k 0) t).1 = K.idx k t := by
    unfold idx
    have := advance_reduced K.shape K.flags 0 k t M.pos
    rw [Nat.zero_add] at this
    rw [this]
  unfold fill
  rw [e]
  refine Prog.Within.store rfl ((fillLoop_within M _ hk _ _ _).bind fun c' =>
    Prog.Within.load (.inl rfl) fun v => ?_)
  cases v with
  | acc x => exact Prog.Within.store rfl (.ret _)
  | val v => exact .fault
  | byte v => exact .fault

theorem fill_bounded (M : K.Sem s0 G) (i : List Nat) :
    ∃ m, ∀ t c, Prog.Bounded m (K.fill b B t i c) := by
  obtain ⟨m, hm⟩ := fillLoop_bounded (B := B) M K.n
  refine ⟨(m + 2) + 1, fun t c => Prog.Bounded.store ((hm _ _ _ _).bind fun c' =>
    Prog.Bounded.load fun v => ?_)⟩
  cases v with
  | acc x => exact Prog.Bounded.store (.ret 0 _)
  | val v => exact .fault _
  | byte v => exact .fault _

/-- Memory after storing results. -/
def written : List (RAddr × (Acc → V)) → Acc → Mem RAddr (RCell V Acc) → Mem RAddr (RCell V Acc)
  | [], _, s => s
  | (a, w) :: rest, x, s => written rest x (Function.update s a (some (.val (w x))))

theorem storeAll_run (os : List (RAddr × (Acc → V))) (x : Acc) (s : Mem RAddr (RCell V Acc))
    (h : ∀ p ∈ os, ∃ c, s p.1 = some c) :
    (storeAll os x).run s = .ok ((), written os x s) := by
  induction os generalizing s with
  | nil => rfl
  | cons p ps ih =>
    obtain ⟨a, w⟩ := p
    obtain ⟨c, hc⟩ := h (a, w) (by simp)
    simp only at hc
    simp only [storeAll, Prog.run, hc, written]
    refine ih _ fun q hq => ?_
    by_cases hqa : q.1 = a
    · rw [hqa]; simp
    · rw [Function.update_of_ne hqa]; exact h q (by simp [hq])

theorem written_of_not_mem (os : List (RAddr × (Acc → V))) (x : Acc)
    (s : Mem RAddr (RCell V Acc)) (a : RAddr) (h : a ∉ os.map Prod.fst) :
    written os x s a = s a := by
  induction os generalizing s with
  | nil => rfl
  | cons p ps ih =>
    obtain ⟨a', w⟩ := p
    simp only [List.map_cons, List.mem_cons, not_or] at h
    simp only [written]
    rw [ih _ h.2, Function.update_of_ne h.1]

theorem written_of_mem (os : List (RAddr × (Acc → V))) (x : Acc)
    (s : Mem RAddr (RCell V Acc)) (hn : (os.map Prod.fst).Nodup) :
    ∀ p ∈ os, written os x s p.1 = some (.val (p.2 x)) := by
  induction os generalizing s with
  | nil => simp
  | cons p ps ih =>
    obtain ⟨a, w⟩ := p
    simp only [List.map_cons, List.nodup_cons] at hn
    intro q hq
    simp only [written]
    rcases List.mem_cons.1 hq with rfl | hq
    · rw [written_of_not_mem _ _ _ _ hn.1]; simp
    · exact ih _ hn.2 q hq

theorem storeAll_within {X W : RAddr → Prop} (os : List (RAddr × (Acc → V))) (x : Acc)
    (h : ∀ p ∈ os, W p.1) : Prog.Within X W (storeAll os x : RProg V Acc Unit) := by
  induction os with
  | nil => exact .ret _
  | cons p ps ih =>
    obtain ⟨a, w⟩ := p
    exact Prog.Within.store (h (a, w) (by simp)) (ih fun q hq => h q (by simp [hq]))

theorem storeAll_bounded (os : List (RAddr × (Acc → V))) (x : Acc) :
    Prog.Bounded os.length (storeAll os x : RProg V Acc Unit) := by
  induction os with
  | nil => exact .ret _ _
  | cons p ps ih => exact Prog.Bounded.store ih

/-- The addresses of a pending result. -/
def Pend (outAt : Nat → σ) (p : Option Nat) (a : RAddr) : Prop :=
  ∃ k, p = some k ∧ a ∈ (K.outs (outAt k)).map Prod.fst

theorem emit_within (outAt : Nat → σ) (p : Option Nat) (t : Nat) :
    Prog.Within (fun a => t = 0 ∧ (a = .shared b 0 ∨ Pend (K := K) outAt p a))
      (fun a => t = 0 ∧ Pend (K := K) outAt p a) (K.emit b t (p.map outAt)) := by
  cases p with
  | none => exact .ret _
  | some k =>
    simp only [Option.map_some, emit]
    split
    · rename_i ht
      refine Prog.Within.load ⟨ht, .inl rfl⟩ fun v => ?_
      cases v with
      | acc x =>
        exact storeAll_within _ _ fun q hq => ⟨ht, k, rfl, List.mem_map.2 ⟨q, hq, rfl⟩⟩
      | val v => exact .fault
      | byte v => exact .fault
    · exact .ret _

theorem emit_bounded (p : Option σ) : ∃ m, ∀ t, Prog.Bounded m (K.emit b t p) := by
  cases p with
  | none => exact ⟨0, fun _ => .ret _ _⟩
  | some o =>
    refine ⟨(K.outs o).length + 1, fun t => ?_⟩
    simp only [emit]
    split
    · refine Prog.Bounded.load fun v => ?_
      cases v with
      | acc x => exact storeAll_bounded _ _
      | val v => exact .fault _
      | byte v => exact .fault _
    · exact .ret _ _

end RKernel

end Bliss.Gpu
