import Verif.Gpu.ReduceLaunch
import Verif.Stat.Props

/-!
# The reduction kernels as instances of the launch theorem
-/

namespace Bliss.Gpu

open Bliss.Nd

variable {V Acc L σ : Type}

theorem addr_no_offset {a : Arr} (h0 : a.base = 0) {idx : List Int}
    (hl : idx.length = a.dims.length) : sdot a.strides idx = addr a.dims idx := by
  rw [addr_eq _ _ hl]
  unfold Arr.base at h0
  rw [h0, zero_add]
  rfl

theorem alloc_base (h : Heap V) (shape : List Int) (junk : Int → V) :
    (alloc h shape junk).2.base = 0 := by
  have : ∀ sh : List Int, ((denseDims sh).1.map Dim.offset).foldl (· + ·) 0 = 0 := by
    intro sh
    induction sh with
    | nil => rfl
    | cons s ss ih => simpa [denseDims] using ih
  exact this shape

/-! ## What an item reads and computes -/

/-- The items of a kernel read only the array in block `ablk` and masks, and compute `f`. -/
structure RKernel.Items (K : RKernel V Acc L σ) (ablk : Nat) (s0 : Mem RAddr (RCell V Acc)) where
  reads : List Nat → RAddr → Prop
  f : List Nat → L → Acc → L × Acc
  within : ∀ i c x, Prog.Within (reads i) (fun _ => False) (K.item i c x)
  bounded : ∃ m, ∀ i c x, Prog.Bounded m (K.item i c x)
  run : ∀ i, ValidIdx K.shape (i.map fun (n : Nat) => (n : Int)) → ∀ c x s,
    Agree (reads i) s s0 → (K.item i c x).run s = .ok (f i c x, s)
  kind : ∀ i x, reads i x → (∃ y, x = .glob ablk y) ∨ ∃ b y, x = .mask b y

/-- Items without a mask. -/
def plainItems {K : RKernel V Acc L σ} {a : Arr} {h : Heap V} {hm : Heap UInt8} {B G : Nat}
    {sh : Nat → Nat → Acc} {X : List Int → V} (step : L → Acc → V → L × Acc)
    (hi : K.item = plainItem a step) (hs : K.shape = a.shape) (h0 : a.base = 0)
    (hX : h.Contains a X) : K.Items a.blk (reduceMem h hm B G sh) where
  reads := fun i x => x = elementAt a i
  f := fun i c x => step c x (X (i.map fun (n : Nat) => (n : Int)))
  within := by
    intro i c x
    rw [hi]
    refine Prog.Within.load rfl fun v => ?_
    cases v with
    | val v => exact .ret _
    | acc v => exact .fault
    | byte v => exact .fault
  bounded := by
    refine ⟨1, fun i c x => ?_⟩
    rw [hi]
    refine Prog.Bounded.load fun v => ?_
    cases v with
    | val v => exact .ret _ _
    | acc v => exact .fault _
    | byte v => exact .fault _
  run := by
    intro i hv c x s hag
    have e : s (elementAt a i) = some (.val (X (i.map fun (n : Nat) => (n : Int)))) := by
      rw [hag _ rfl]
      rw [hs] at hv
      have := hX _ hv
      simp only [elementAt, reduceMem]
      rw [addr_no_offset h0 (by rw [hv.length_eq, shape_length])]
      simp only [Heap.get] at this
      rw [this]
      rfl
    rw [hi]
    simp only [plainItem, loadVal, Prog.run, e]
  kind := fun i x hx => .inl ⟨_, hx⟩

/-- Items with a mask. -/
def maskedItems {K : RKernel V Acc L σ} {a m : Arr} {h : Heap V} {hm : Heap UInt8} {B G : Nat}
    {sh : Nat → Nat → Acc} {X : List Int → V} {Y : List Int → UInt8}
    (step : L → Acc → V → L × Acc)
    (hi : K.item = maskedItem a m step) (hs : K.shape = a.shape) (h0 : a.base = 0)
    (hX : h.Contains a X) (hms : m.shape = a.shape) (hm0 : m.base = 0) (hY : hm.Contains m Y) :
    K.Items a.blk (reduceMem h hm B G sh) where
  reads := fun i x => x = elementAt a i ∨ x = maskAt m i
  f := fun i c x => if Y (i.map fun (n : Nat) => (n : Int)) = 0 then
    step c x (X (i.map fun (n : Nat) => (n : Int))) else (c, x)
  within := by
    intro i c x
    rw [hi]
    refine Prog.Within.load (.inr rfl) fun v => ?_
    cases v with
    | byte v =>
      simp only
      split
      · refine Prog.Within.load (.inl rfl) fun v => ?_
        cases v with
        | val v => exact .ret _
        | acc v => exact .fault
        | byte v => exact .fault
      · exact .ret _
    | acc v => exact .fault
    | val v => exact .fault
  bounded := by
    refine ⟨2, fun i c x => ?_⟩
    rw [hi]
    refine Prog.Bounded.load fun v => ?_
    cases v with
    | byte v =>
      simp only
      split
      · refine Prog.Bounded.load fun v => ?_
        cases v with
        | val v => exact .ret _ _
        | acc v => exact .fault _
        | byte v => exact .fault _
      · exact .ret _ _
    | acc v => exact .fault _
    | val v => exact .fault _
  run := by
    intro i hv c x s hag
    rw [hs] at hv
    have e : s (elementAt a i) = some (.val (X (i.map fun (n : Nat) => (n : Int)))) := by
      rw [hag _ (.inl rfl)]
      have := hX _ hv
      simp only [elementAt, reduceMem]
      rw [addr_no_offset h0 (by rw [hv.length_eq, shape_length])]
      simp only [Heap.get] at this
      rw [this]
      rfl
    have e' : s (maskAt m i) = some (.byte (Y (i.map fun (n : Nat) => (n : Int)))) := by
      rw [hag _ (.inr rfl)]
      have := hY _ (by rw [hms]; exact hv)
      simp only [maskAt, reduceMem]
      rw [addr_no_offset hm0 (by rw [hv.length_eq, ← hms, shape_length])]
      simp only [Heap.get] at this
      rw [this]
      rfl
    rw [hi]
    simp only [maskedItem, loadByte, Prog.run, e']
    by_cases hz : Y (i.map fun (n : Nat) => (n : Int)) = 0
    · simp only [hz, if_true, loadVal, Prog.run, e]
    · simp only [hz, if_false, Prog.run]
  kind := by
    rintro i x (rfl | rfl)
    · exact .inl ⟨_, rfl⟩
    · exact .inr ⟨_, _, rfl⟩

/-! ## Kernels launched on an array and freshly allocated outputs -/

/-- A kernel launched on the array `a` and on outputs with the dimensions of `out`, in the blocks
`ws`, each with what is stored there. -/
structure RKernel.Fits (K : RKernel V Acc L σ) (a out : Arr) (axes : List Int) (h1 : Heap V)
    (ws : List (Nat × (Acc → V))) (outAt : Nat → σ) : Prop where
  shape : K.shape = a.shape
  flags : K.flags = axisFlags a axes
  n : K.n = (Stat.count a axes).toNat
  numel : K.numel = out.numel.toNat
  outRank : K.outRank = out.shape.length
  pos : ∀ s ∈ a.shape, 0 < s
  posO : ∀ s ∈ out.shape, 0 < s
  rank : a.shape.length ≤ 4 ∧ out.shape.length ≤ 4
  base : out.base = 0
  distinct : out.Distinct
  outs : ∀ k, K.outs (outAt k) = ws.map fun w =>
    (RAddr.glob w.1 (sdot out.strides (indexOf out.shape k)), w.2)
  first : ∀ b < K.numel, K.first b = outAt b
  next : ∀ k, k + RKernel.gridSize K.numel < K.numel →
    K.next (RKernel.gridSize K.numel) (outAt k) = outAt (k + RKernel.gridSize K.numel)
  nodup : (ws.map Prod.fst).Nodup
  fresh : ∀ w ∈ ws, w.1 ≠ a.blk
  mapped : ∀ w ∈ ws, ∀ idx, ValidIdx out.shape idx → h1.mem w.1 (addr out.dims idx) ≠ none

namespace RKernel

variable {K : RKernel V Acc L σ} {a out : Arr} {axes : List Int} {h1 : Heap V} {hm : Heap UInt8}
  {ws : List (Nat × (Acc → V))} {outAt : Nat → σ} {sh : Nat → Nat → Acc}

theorem Fits.valid (F : K.Fits a out axes h1 ws outAt) {k : Nat} (hk : k < K.numel) :
    ValidIdx out.shape (indexOf out.shape k) := by
  rw [F.numel, ← cells_numel F.posO] at hk
  rw [indexOf_unravel F.posO hk]
  exact valid_unravel (sizeDims_size _) hk

theorem Fits.inj (F : K.Fits a out axes h1 ws outAt) {k k' : Nat} (hk : k < K.numel)
    (hk' : k' < K.numel) (he : indexOf out.shape k = indexOf out.shape k') : k = k' := by
  rw [F.numel, ← cells_numel F.posO] at hk hk'
  rw [indexOf_unravel F.posO hk, indexOf_unravel F.posO hk'] at he
  exact unravel_inj hk hk' he

theorem Fits.surj (F : K.Fits a out axes h1 ws outAt) {i : List Int} (hi : ValidIdx out.shape i) :
    ∃ k < K.numel, indexOf out.shape k = i := by
  have hb : InBox (sizeDims out.shape) i := (inBox_iff _ _).2 (by rw [sizeDims_size]; exact hi)
  have hk := ravel_lt hb
  refine ⟨ravel (sizeDims out.shape) i, ?_, ?_⟩
  · rw [F.numel, ← cells_numel F.posO]; exact hk
  · rw [indexOf_unravel F.posO hk, unravel_ravel hb]

theorem Fits.addr (F : K.Fits a out axes h1 ws outAt) {k : Nat} (hk : k < K.numel) :
    sdot out.strides (indexOf out.shape k) = addr out.dims (indexOf out.shape k) :=
  addr_no_offset F.base (by rw [(F.valid hk).length_eq, shape_length])

/-- The launch theorem applies. -/
def Fits.sem (F : K.Fits a out axes h1 ws outAt) {B G : Nat}
    (I : K.Items a.blk (reduceMem h1 hm B G sh)) :
    K.Sem (reduceMem h1 hm B G sh) (gridSize K.numel) where
  reads := I.reads
  f := I.f
  outAt := outAt
  pos := by rw [F.shape]; exact F.pos
  rank := by rw [F.shape, F.outRank]; exact F.rank
  within := I.within
  bounded := I.bounded
  run := fun k _ r _ c x s hs => I.run _ (by
    unfold idx
    refine digits_valid _ _ _ _ ?_ ?_
    · rw [F.flags, F.shape]; exact axisFlags_length a axes
    · rw [F.shape]; exact F.pos) c x s hs
  first_eq := F.first
  next_eq := F.next
  reads_global := by
    intro i b t hr
    rcases I.kind i _ hr with ⟨y, e⟩ | ⟨b', y, e⟩ <;> cases e
  outs_global := by
    intro k p hp b t
    rw [F.outs] at hp
    obtain ⟨w, _, rfl⟩ := List.mem_map.1 hp
    simp
  outs_read := by
    intro k _ p hp k' _ r _ hr
    rw [F.outs] at hp
    obtain ⟨w, hw, rfl⟩ := List.mem_map.1 hp
    rcases I.kind _ _ hr with ⟨y, e⟩ | ⟨b', y, e⟩
    · injection e with e1 _
      exact F.fresh w hw e1
    · cases e
  outs_mapped := by
    intro k hk p hp
    rw [F.outs] at hp
    obtain ⟨w, hw, rfl⟩ := List.mem_map.1 hp
    simp only [reduceMem]
    rw [F.addr hk]
    obtain ⟨v, hv⟩ := Option.ne_none_iff_exists'.1 (F.mapped w hw _ (F.valid hk))
    exact ⟨_, by rw [hv]; rfl⟩
  outs_nodup := by
    intro k _
    rw [F.outs, List.map_map]
    have := F.nodup
    rw [List.Nodup, List.pairwise_map] at this ⊢
    refine this.imp fun {x y} hxy he => hxy ?_
    simp only [Function.comp] at he
    injection he
  outs_disjoint := by
    intro k hk k' hk' hne p hp q hq
    rw [F.outs] at hp hq
    obtain ⟨w, hw, rfl⟩ := List.mem_map.1 hp
    obtain ⟨w', hw', rfl⟩ := List.mem_map.1 hq
    intro he
    injection he with _ e2
    rw [F.addr hk, F.addr hk'] at e2
    exact hne (F.inj hk hk' (F.distinct _ _ (F.valid hk) (F.valid hk') e2))

/-- The registers of the threads after `n` results of the block that began with result `b`: they are
not reset between results (`statistical_cuda.cu:116-118,148-152`). -/
def Sem.regsFrom {s0 : Mem RAddr (RCell V Acc)} {G : Nat} (M : K.Sem s0 G) (B b : Nat) :
    Nat → Nat → L
  | 0, _ => K.comp
  | n + 1, t => (M.part B (b + n * G) t (M.regsFrom B b n t)).1

/-- The registers with which result `k` is begun. -/
def Sem.regs {s0 : Mem RAddr (RCell V Acc)} {G : Nat} (M : K.Sem s0 G) (B k : Nat) : Nat → L :=
  M.regsFrom B (k % G) (k / G)

theorem Sem.mem_results {s0 : Mem RAddr (RCell V Acc)} {G : Nat} (M : K.Sem s0 G) (hG : 0 < G)
    (B : Nat) {k : Nat} (hk : k < K.numel) :
    (k, M.total B k (M.regs B k)) ∈
      M.results B (gridStride G K.numel (k % G)) (fun _ => K.comp) := by
  -- the list from the `n`-th result on
  have key : ∀ fuel n : Nat, n ≤ k / G →
      (k, M.total B k (M.regs B k)) ∈ M.results B
        ((List.range' n (k / G + fuel - n)).filterMap fun j =>
          if k % G + j * G < K.numel then some (k % G + j * G) else none)
        (M.regsFrom B (k % G) n) ∨ fuel = 0 := by
    intro fuel n hn
    rcases Nat.eq_zero_or_pos fuel with h0 | hf
    · exact .inr h0
    left
    induction hm : k / G - n generalizing n with
    | zero =>
      have : n = k / G := by omega
      subst this
      have e : k % G + k / G * G = k := by rw [Nat.mul_comm]; exact Nat.mod_add_div k G
      obtain ⟨f, rfl⟩ : ∃ f, fuel = f + 1 := ⟨fuel - 1, by omega⟩
      rw [show k / G + (f + 1) - k / G = f + 1 by omega, List.range'_succ, List.filterMap_cons, e]
      simp only [hk, if_true]
      exact List.mem_cons_self
    | succ m ih =>
      obtain ⟨f, hf'⟩ : ∃ f, k / G + fuel - n = f + 1 := ⟨k / G + fuel - n - 1, by omega⟩
      have hlt : k % G + n * G < K.numel := by
        have h1 : n * G ≤ k / G * G := Nat.mul_le_mul_right _ hn
        have h2 : k % G + k / G * G = k := by rw [Nat.mul_comm]; exact Nat.mod_add_div k G
        omega
      rw [hf', List.range'_succ, List.filterMap_cons]
      simp only [hlt, if_true]
      refine List.mem_cons_of_mem _ ?_
      have := ih (n + 1) (by omega) (by omega)
      rwa [show k / G + fuel - (n + 1) = f by omega] at this
  have hn : k / G < K.numel := (Nat.div_le_self k G).trans_lt hk
  have := key (K.numel - k / G) 0 (Nat.zero_le _)
  rw [show k / G + (K.numel - k / G) - 0 = K.numel by omega] at this
  rcases this with h | h
  · unfold gridStride
    rw [List.range_eq_range']
    exact h
  · omega

/-- What a launch leaves. `val` does not depend on the schedule. -/
theorem Fits.launch {ρ : Type} (F : K.Fits a out axes h1 ws outAt) (hn : 0 < K.n)
    (I : K.Items a.blk (reduceMem h1 hm (blockSize K.n) (gridSize K.numel) sh)) (r : ρ) :
    ∃ val : Nat → Acc,
      ((∀ k t, ((F.sem I).part (blockSize K.n) k t K.comp).1 = K.comp) →
        ∀ k < K.numel, val k = (F.sem I).total (blockSize K.n) k fun _ => K.comp) ∧
      (∀ k < K.numel, val k =
        (F.sem I).total (blockSize K.n) k ((F.sem I).regs (blockSize K.n) k)) ∧
      (∃ o, RLaunch K h1 hm sh r o) ∧
      Terminates BlockStep K.blocks
        (reduceMem h1 hm (blockSize K.n) (gridSize K.numel) sh) ∧
      ∀ o, RLaunch K h1 hm sh r o → ∃ h', o = .ok (h', r) ∧ h'.next = h1.next ∧
        (∀ k < K.numel, ∀ w ∈ ws,
          h'.mem w.1 (Nd.addr out.dims (indexOf out.shape k)) = some (w.2 (val k))) ∧
        ∀ b, b ∉ ws.map Prod.fst → h'.mem b = h1.mem b := by
  obtain ⟨l1, l2, ⟨s, l3⟩, l4⟩ := reduce_launch (F.sem I) hn (by
    intro b hb t ht
    exact ⟨_, by simp only [reduceMem]; rw [if_pos ⟨hb, ht⟩]⟩)
  let val : Nat → Acc := fun k =>
    (F.sem I).total (blockSize K.n) k ((F.sem I).regs (blockSize K.n) k)
  have hval : ∀ k, k < K.numel → (k, val k) ∈ (F.sem I).results (blockSize K.n)
      (gridStride (gridSize K.numel) K.numel (k % gridSize K.numel)) (fun _ => K.comp) :=
    fun k hk => (F.sem I).mem_results (by unfold gridSize; omega) _ hk
  refine ⟨val, ?_, fun k hk => rfl, ⟨_, .done l3⟩, l2, ?_⟩
  · intro hc k hk
    have := hval k hk
    rw [results_fixed (F.sem I) hc, List.mem_map] at this
    obtain ⟨k', _, e⟩ := this
    injection e with e1 e2
    subst e1
    exact e2.symm
  · intro o ho
    cases ho with
    | fault hx => exact absurd hx l1
    | @done s' hx =>
      obtain ⟨m1, m2⟩ := l4 s' hx
      refine ⟨_, rfl, rfl, ?_, ?_⟩
      · intro k hk w hw
        have hG : 0 < gridSize K.numel := by unfold gridSize; omega
        have := m1 _ (Nat.mod_lt k hG) _ (hval k hk)
          (.glob w.1 (sdot out.strides (indexOf out.shape k)), w.2) (by
            show _ ∈ K.outs (outAt k)
            rw [F.outs]
            exact List.mem_map.2 ⟨w, hw, rfl⟩)
        simp only at this
        rw [F.addr hk] at this
        simp only [reduceHeap, this]
      · intro b hb
        funext i
        have := m2 (.glob b i) (by simp) (by
          intro k _ o ho he
          have ho' : o ∈ K.outs (outAt k) := ho
          rw [F.outs] at ho'
          obtain ⟨w, hw, rfl⟩ := List.mem_map.1 ho'
          injection he with e1 _
          exact hb (List.mem_map.2 ⟨w, hw, e1.symm⟩))
        simp only [reduceHeap, this, reduceMem]
        cases h1.mem b i <;> rfl

end RKernel

end Bliss.Gpu
