import Verif.Gpu.ReduceSem
import Verif.Gpu.ReduceLaunch
import Verif.Stat.Median
import Verif.Misc.Types
import Mathlib.Data.BitVec
import Mathlib.Algebra.BigOperators.Fin

/-!
# C86: counting true elements on a CUDA device

`count_true_kernel` (`bland/bland/ops/cuda/count.cuh:14-58`): every thread counts its elements, the
block adds up the counts in a tree in shared memory, and thread 0 adds the sum of the block to one
counter with an atomic operation. Blocks run side by side, so the additions happen in any order.

Simplification: the multi-index a thread keeps in its own slice of shared memory is private.
-/

namespace Bliss.Gpu

open Bliss.Nd

/-! ## Blocks that end with an atomic addition -/

section Add

variable {A V L ι M : Type} [DecidableEq A] [DecidableEq ι] [AddCommMonoid M]

/-- A block that runs its phases and then adds `pick` of what its threads hold to a counter, once.
`none` is a block that has done so (`count.cuh:55-57`). -/
inductive AddStep (pick : (ι → L) → M) : Kernel (Option (BState ι A V L)) (Mem A V × M)
  | block {l l' : BState ι A V L} {s s' : Mem A V} {c : M} (h : BlockStep l s (.ok (l', s'))) :
      AddStep pick (some l) (s, c) (.ok (some l', (s', c)))
  | fault {l : BState ι A V L} {s : Mem A V} {c : M} (h : BlockStep l s .ub) :
      AddStep pick (some l) (s, c) .ub
  | add {l : BState ι A V L} {s : Mem A V} {c : M} (x : ι → L) (hr : l.rest = [])
      (hx : ∀ i, l.cur i = .ret (x i)) :
      AddStep pick (some l) (s, c) (.ok (none, (s, c + pick x)))

theorem addStep_progress (pick : (ι → L) → M) (l : BState ι A V L) (s : Mem A V) (c : M) :
    ∃ r, AddStep pick (some l) (s, c) r := by
  rcases blockStep_progress l s with ⟨r, h⟩ | ⟨h, x, hx⟩
  · cases r with
    | ok z => exact ⟨_, .block h⟩
    | throws e => exact absurd h (blockStep_not_throws _ _ _)
    | ub => exact ⟨_, .fault h⟩
  · exact ⟨_, .add x h hx⟩

theorem addStep_none (pick : (ι → L) → M) :
    Returned (AddStep (A := A) (V := V) pick) none := by
  intro s r h
  cases h

/-- A bound on the steps a block still has. -/
noncomputable def addCost [Fintype ι] : Option (BState ι A V L) → Nat
  | none => 0
  | some l => l.cost + 1

/-- A launch of such blocks: under every schedule the counter ends with the sum of what the blocks
compute alone. -/
theorem add_launch {β : Type} [DecidableEq β] [Fintype β] [Fintype ι]
    {phases : β → List (Phase ι A V L)} {X W : β → A → Prop} {x : β → ι → L} {s : Mem A V}
    (pick : (ι → L) → M) (c0 : M)
    (hWX : ∀ b a, W b a → X b a) (hD : ∀ b c a, b ≠ c → W b a → ¬ X c a)
    (hw : ∀ b, ∀ p ∈ phases b, ∀ i y, Prog.Within (X b) (W b) (p i y))
    (hb : ∀ b, ∀ p ∈ phases b, Phase.Bounded p)
    {P Q : β → (ι → L) → Mem A V → Prop} (hps : ∀ b, PhasesOk (phases b) (P b) (Q b))
    (hP : ∀ b, P b (x b) s) (w : β → M) (hQ : ∀ b y t, Q b y t → pick y = w b) :
    let ls : β → Option (BState ι A V L) := fun b => some (.start (x b) (phases b))
    ¬ Exec (AddStep pick) ls (s, c0) .ub ∧ Terminates (AddStep pick) ls (s, c0) ∧
    (∃ r, Completes (AddStep pick) ls (s, c0) r) ∧
    ∀ r, Completes (AddStep pick) ls (s, c0) r → r.2 = c0 + ∑ b, w b := by
  intro ls
  let st : β → BState ι A V L := fun b => .start (x b) (phases b)
  obtain ⟨hsafe, -, -, -⟩ := block_launch hWX hD hw hb hps hP
  -- what the counter holds while blocks run
  let Inv : (β → Option (BState ι A V L)) → Mem A V × M → Prop := fun ls z =>
    ∃ full : β → BState ι A V L, Exec BlockStep st s (.ok (full, z.1)) ∧
      (∀ b, (ls b = some (full b)) ∨ (ls b = none ∧ Returned BlockStep (full b))) ∧
      (∀ b, (full b).Bounded) ∧ z.2 = c0 + ∑ b, if (ls b).isNone then w b else 0
  have inv0 : Inv ls (s, c0) :=
    ⟨st, .stop _ _, fun b => .inl rfl, fun b => ⟨fun i => ⟨0, .ret _ _⟩, hb b⟩, by simp [ls]⟩
  have step : ∀ ls z i l' z', Inv ls z → AddStep pick (ls i) z (.ok (l', z')) →
      Inv (Function.update ls i l') z' ∧
        ∑ b, addCost (Function.update ls i l' b) < ∑ b, addCost (ls b) := by
    intro ls z i l' z' ⟨full, hE, hf, hB, hc⟩ hk
    have lt : ∀ l1, ls i = some l1 → addCost l' < addCost (some l1) →
        ∑ b, addCost (Function.update ls i l' b) < ∑ b, addCost (ls b) := by
      intro l1 e hlt
      refine Finset.sum_lt_sum (fun j _ => ?_) ⟨i, Finset.mem_univ i, by simpa [e] using hlt⟩
      by_cases hj : j = i
      · subst hj; simpa [e] using hlt.le
      · simp [Function.update_of_ne hj]
    generalize hl : ls i = li at hk
    cases hk with
    | @block l l1 s1 s2 c h =>
      have e : full i = l := by
        rcases hf i with h1 | ⟨h1, _⟩
        · rw [h1] at hl; exact Option.some.inj hl
        · rw [h1] at hl; cases hl
      subst e
      obtain ⟨b1, b2⟩ := BState.cost_step (hB i) h
      refine ⟨⟨Function.update full i l1, hE.trans (.step i h (.stop _ _)), fun b => ?_,
        fun b => ?_, ?_⟩, lt _ hl (by simpa [addCost] using b2)⟩
      · by_cases hbi : b = i
        · subst hbi; left; simp
        · simpa [Function.update_of_ne hbi] using hf b
      · by_cases hbi : b = i
        · subst hbi; simpa using b1
        · simpa [Function.update_of_ne hbi] using hB b
      · refine hc.trans ?_
        congr 1
        refine Finset.sum_congr rfl fun b _ => ?_
        by_cases hbi : b = i
        · subst hbi; simp [hl]
        · simp [Function.update_of_ne hbi]
    | @add l s1 c y hr hy =>
      have e : full i = l := by
        rcases hf i with h1 | ⟨h1, _⟩
        · rw [h1] at hl; exact Option.some.inj hl
        · rw [h1] at hl; cases hl
      subst e
      have hret := block_returned hr hy
      obtain ⟨y', t, hy', hq, -⟩ := block_returns hWX hD hw hps hP hE i hret
      have hyy : y' = y := by
        funext j
        have := (hy' j).symm.trans (hy j)
        injection this
      subst hyy
      refine ⟨⟨full, hE, fun b => ?_, hB, ?_⟩, lt _ hl (by simp [addCost])⟩
      · by_cases hbi : b = i
        · subst hbi; right; exact ⟨by simp, hret⟩
        · simpa [Function.update_of_ne hbi] using hf b
      · simp only at hc ⊢
        rw [hc, hQ i _ _ hq, add_assoc]
        congr 1
        rw [← Finset.sum_erase_add _ (fun b => if (ls b).isNone then w b else 0) (Finset.mem_univ i),
          ← Finset.sum_erase_add _ (fun b => if (Function.update ls i none b).isNone then w b else 0)
            (Finset.mem_univ i)]
        simp only [hl, Option.isNone_some, Bool.false_eq_true, if_false, add_zero,
          Function.update_self, Option.isNone_none, if_true]
        congr 1
        refine Finset.sum_congr rfl fun b hb' => ?_
        rw [Function.update_of_ne (Finset.ne_of_mem_erase hb')]
  have reach : ∀ ls z o, Exec (AddStep pick) ls z o → Inv ls z →
      o ≠ .ub ∧ ∀ ls' z', o = .ok (ls', z') → Inv ls' z' := by
    intro ls z o h
    induction h with
    | stop ls z =>
      intro hI
      exact ⟨fun e => (by cases e), fun ls' z' e => by cases e; exact hI⟩
    | step i hk _ ih => intro hI; exact ih (step _ _ _ _ _ hI hk).1
    | @fault ls z i hk =>
      rintro ⟨full, hE, hf, -, -⟩
      exfalso
      generalize hl : ls i = li at hk
      cases hk with
      | fault h =>
        rcases hf i with h1 | ⟨h1, _⟩
        · rw [h1] at hl
          cases Option.some.inj hl
          exact hsafe (hE.trans (.fault i h))
        · rw [h1] at hl; cases hl
  refine ⟨fun h => (reach _ _ _ h inv0).1 rfl, ?_, ?_, ?_⟩
  · refine terminates_of_measure (fun y => Inv y.1 y.2) (fun y => ∑ b, addCost (y.1 b)) inv0 ?_
    rintro ⟨ls, z⟩ ⟨ls', z'⟩ hJ ⟨i, l', hk, he⟩
    simp only at he hk hJ
    subst he
    exact step _ _ _ _ _ hJ hk
  · refine exists_complete (fun ls z => Inv ls z) (fun ls _ => ∑ b, addCost (ls b))
      (fun ls z i l' z' hJ hk => step _ _ _ _ _ hJ hk) ?_ ls (s, c0) inv0
    rintro ls ⟨t, c⟩ i hJ
    cases hl : ls i with
    | none => exact .inl (addStep_none pick)
    | some l =>
      obtain ⟨r, hr⟩ := addStep_progress pick l t c
      cases r with
      | ok z => exact .inr ⟨z.1, z.2, hr⟩
      | throws e => cases hr
      | ub =>
        exact absurd rfl (reach _ _ _ (.fault i (by rw [hl]; exact hr)) hJ).1
  · rintro ⟨t, c⟩ ⟨ls', hE, hret⟩
    obtain ⟨full, -, hf, -, hc⟩ := (reach _ _ _ hE inv0).2 _ _ rfl
    refine hc.trans ?_
    congr 1
    refine Finset.sum_congr rfl fun b _ => ?_
    have : ls' b = none := by
      cases hl : ls' b with
      | none => rfl
      | some l =>
        obtain ⟨r, hr⟩ := addStep_progress pick l t c
        exact absurd hr (by rw [← hl]; exact hret b _ _)
    simp [this]

end Add

/-! ## The kernel -/

variable {V : Type}

/-- `uint32_t`. -/
abbrev U32 := BitVec 32

/-- The loop of a thread over its elements (`count.cuh:27-44`): unravel the number, read the element,
count it if it is true. -/
def countLoop (a : Arr) (truth : V → Bool) : List Nat → U32 → RProg V U32 U32
  | [], c => .ret c
  | n :: ns, c => loadVal (elementAt a (startIndex a.shape n).1) fun v =>
      countLoop a truth ns (if truth v then c + 1 else c)

/-- A thread up to the first barrier (`count.cuh:22-46`). -/
def countFill (a : Arr) (truth : V → Bool) (G numel b : Nat) :
    Phase (Fin 256) RAddr (RCell V U32) U32 := fun t _ =>
  (countLoop a truth (gridStride (G * 256) numel (b * 256 + t)) 0).bind fun c =>
    .store (.shared b t) (.acc c) (.ret c)

/-- One level of the tree (`count.cuh:50-53`). -/
def countLevel (b s : Nat) : Phase (Fin 256) RAddr (RCell V U32) U32 := fun t c =>
  if t.1 < s then
    loadAcc (.shared b t) fun x => loadAcc (.shared b (t + s)) fun y =>
      .store (.shared b t) (.acc (x + y)) (.ret c)
  else .ret c

/-- Thread 0 reads the sum of the block (`count.cuh:55-56`); it is added to the counter by
`AddStep`. -/
def countLast (b : Nat) : Phase (Fin 256) RAddr (RCell V U32) U32 := fun t c =>
  if t.1 = 0 then loadAcc (.shared b 0) fun x => .ret x else .ret c

/-- The phases of block `b` (`count.cuh:14-58`). -/
def countPhases (a : Arr) (truth : V → Bool) (G numel b : Nat) :
    List (Phase (Fin 256) RAddr (RCell V U32) U32) :=
  countFill a truth G numel b ::
    ((RKernel.halvings 256 (256 / 2)).map (countLevel b) ++ [countLast b])

/-- Number of blocks for what `numel()` returns (`count.cuh:80-83`). A number that is not positive is
rejected by the runtime, and nothing runs. -/
def countGrid (numel : Int) : Nat := (min 256 ((numel + 255).tdiv 256)).toNat

/-- The blocks of the launch when `numel()` returned `n`. -/
def countBlocks (truth : V → Bool) (a : Arr) (n : Int) :
    Fin (countGrid n) → Option (BState (Fin 256) RAddr (RCell V U32) U32) := fun b =>
  some (.start (fun _ => 0) (countPhases a truth (countGrid n) n.toNat b))

/-- Memory and counter at launch (`count.cuh:70-88`): shared memory holds anything, the counter 0. -/
def countStart (h : Heap V) (junk : Nat → Nat → U32) (n : Int) :
    Mem RAddr (RCell V U32) × U32 :=
  (reduceMem h ⟨fun _ _ => none, 0⟩ 256 (countGrid n) junk, 0)

/-- Every block adds what thread 0 has read (`count.cuh:55-57`). -/
abbrev CountStep : Kernel (Option (BState (Fin 256) RAddr (RCell V U32) U32))
    (Mem RAddr (RCell V U32) × U32) := AddStep fun y : Fin 256 → U32 => y 0

/-- The ways `count_true` of an array on a device can end (`count.cuh:60-96`,
`statistical_cuda.cu:1573-1575`), where `numel()` is as the code computes it. The counter is
returned as a 64-bit number. -/
inductive GpuCount (truth : V → Bool) (h : Heap V) (a : Arr) (junk : Nat → Nat → U32) :
    Outcome Int → Prop
  | numelUb (hn : Types.numel a.shape = .ub) : GpuCount truth h a junk .ub
  | fault {n : Int} (hn : Types.numel a.shape = .ok n)
      (hx : Exec CountStep (countBlocks truth a n) (countStart h junk n) .ub) :
      GpuCount truth h a junk .ub
  | done {n : Int} {r : Mem RAddr (RCell V U32) × U32} (hn : Types.numel a.shape = .ok n)
      (hx : Completes CountStep (countBlocks truth a n) (countStart h junk n) r) :
      GpuCount truth h a junk (.ok r.2.toNat)

/-- No schedule of the launch runs forever. -/
def GpuCountEnds (truth : V → Bool) (h : Heap V) (a : Arr) (junk : Nat → Nat → U32) : Prop :=
  ∀ n, Types.numel a.shape = .ok n →
    Terminates CountStep (countBlocks truth a n) (countStart h junk n)

/-! ## What a block computes -/

/-- The elements of a list of numbers that are true. -/
def trues (truth : V → Bool) (X : List Int → V) (shape : List Int) (ns : List Nat) : Nat :=
  ns.countP fun n => truth (X (indexOf shape n))

/-- The memory outside shared memory is as at launch. -/
def SameData (s0 s : Mem RAddr (RCell V U32)) : Prop :=
  Agree (fun a => ∀ b t, a ≠ .shared b t) s s0

theorem countLoop_run {a : Arr} {truth : V → Bool} {X : List Int → V} {s0 s : Mem RAddr (RCell V U32)}
    (hs : SameData s0 s) (ns : List Nat) (c : Nat)
    (hX : ∀ n ∈ ns, s0 (elementAt a (startIndex a.shape n).1) =
      some (.val (X (indexOf a.shape n)))) :
    (countLoop a truth ns (BitVec.ofNat 32 c)).run s =
      .ok (BitVec.ofNat 32 (c + trues truth X a.shape ns), s) := by
  induction ns generalizing c with
  | nil => simp [countLoop, Prog.run, trues]
  | cons n ns ih =>
    have h1 : s (elementAt a (startIndex a.shape n).1) = some (.val (X (indexOf a.shape n))) := by
      rw [hs _ (fun b t => by simp [elementAt]), hX n (by simp)]
    simp only [countLoop, loadVal, Prog.run, h1]
    have h2 : (if truth (X (indexOf a.shape n)) = true then BitVec.ofNat 32 c + 1
        else BitVec.ofNat 32 c) =
        BitVec.ofNat 32 (c + if truth (X (indexOf a.shape n)) then 1 else 0) := by
      split
      · rw [BitVec.ofNat_add]; rfl
      · simp
    rw [h2, ih _ fun m hm => hX m (by simp [hm])]
    congr 3
    unfold trues
    rw [List.countP_cons]
    omega

theorem countLoop_within (a : Arr) (truth : V → Bool) (ns : List Nat) (c : U32) :
    Prog.Within (fun a => ∀ b t, a ≠ .shared b t) (fun _ => False) (countLoop a truth ns c) := by
  induction ns generalizing c with
  | nil => exact .ret _
  | cons n ns ih =>
    refine Prog.Within.load (fun b t => by simp [elementAt]) fun v => ?_
    cases v with
    | val v => exact ih _
    | acc v => exact .fault
    | byte v => exact .fault

theorem countLoop_bounded (a : Arr) (truth : V → Bool) (ns : List Nat) (c : U32) :
    Prog.Bounded ns.length (countLoop a truth ns c) := by
  induction ns generalizing c with
  | nil => exact .ret _ _
  | cons n ns ih =>
    refine Prog.Bounded.load fun v => ?_
    cases v with
    | val v => exact ih _
    | acc v => exact .fault _
    | byte v => exact .fault _

/-- Between two barriers: cell `t` of block `b` holds `g t`. -/
def CountMid (s0 : Mem RAddr (RCell V U32)) (b : Nat) (g : Nat → U32) (_ : Fin 256 → U32)
    (s : Mem RAddr (RCell V U32)) : Prop :=
  SameData s0 s ∧ ∀ t < 256, s (.shared b t) = some (.acc (g t))

section Block

variable {a : Arr} {truth : V → Bool} {X : List Int → V} {s0 : Mem RAddr (RCell V U32)} {G numel b : Nat}

theorem countFill_phase
    (hX : ∀ n < numel, s0 (elementAt a (startIndex a.shape n).1) =
      some (.val (X (indexOf a.shape n)))) (hG : 0 < G)
    {x : Fin 256 → U32} {s : Mem RAddr (RCell V U32)} (hs : SameData s0 s)
    (hm : ∀ t < 256, ∃ v, s (.shared b t) = some v) :
    PhaseRun (fun t : Fin 256 => countFill a truth G numel b t (x t)) s
      (CountMid s0 b fun t => BitVec.ofNat 32
        (trues truth X a.shape (gridStride (G * 256) numel (b * 256 + t)))) := by
  have hrun : ∀ t : Fin 256, (countFill a truth G numel b t (x t)).run s =
      .ok (BitVec.ofNat 32 (trues truth X a.shape (gridStride (G * 256) numel (b * 256 + t))),
        Function.update s (.shared b t) (some (.acc (BitVec.ofNat 32
          (trues truth X a.shape (gridStride (G * 256) numel (b * 256 + t))))))) := by
    intro t
    obtain ⟨v, hv⟩ := hm t t.2
    unfold countFill
    rw [Prog.run_bind]
    have := countLoop_run (truth := truth) (X := X) hs (gridStride (G * 256) numel (b * 256 + t)) 0
      (fun n hn => hX n ((mem_gridStride (by omega)).1 hn).1)
    rw [show (BitVec.ofNat 32 0 : U32) = 0 from rfl, Nat.zero_add] at this
    rw [this]
    simp only [Outcome.bind_ok, Prog.run, hv]
  refine ⟨fun t a => a = .shared b t ∨ ∀ b t, a ≠ .shared b t, fun t a => a = .shared b t,
    fun _ _ h => .inl h, ?_, ?_, fun t => ⟨_, hrun t⟩, ?_⟩
  · rintro i j a hij rfl (h | h)
    · simp only [RAddr.shared.injEq, true_and] at h
      exact hij (Fin.ext h)
    · exact h _ _ rfl
  · intro t
    refine Prog.Within.bind ((countLoop_within a truth _ _).mono (fun _ h => .inr h)
      (fun _ h => h.elim)) fun c => Prog.Within.store rfl (.ret _)
  · intro y s' hag hfr
    refine ⟨fun a' ha' => ?_, fun t ht => ?_⟩
    · rw [hfr a' (fun i => ha' _ _)]
      exact hs a' ha'
    · obtain ⟨u, hu, hau⟩ := hag ⟨t, ht⟩
      rw [hrun] at hu
      have hu2 := congrArg Prod.snd (Outcome.ok.inj hu)
      simp only at hu2
      rw [hau _ (.inl rfl), ← hu2]
      simp

theorem countLevel_phase {g : Nat → U32} {w : Nat} (hw : 2 * w ≤ 256) {x : Fin 256 → U32}
    {s : Mem RAddr (RCell V U32)} (h : CountMid s0 b g x s) :
    PhaseRun (fun t : Fin 256 => countLevel (V := V) b w t (x t)) s
      (CountMid s0 b (RKernel.level (· + ·) g w)) := by
  obtain ⟨hE, hg⟩ := h
  have hrun : ∀ t : Fin 256, ∃ s1, (countLevel b w t (x t)).run s = .ok (x t, s1) ∧
      ((t : Nat) < w → s1 (.shared b t) = some (.acc (g t + g (t + w)))) := by
    intro t
    by_cases ht : (t : Nat) < w
    · refine ⟨Function.update s (.shared b t) (some (.acc (g t + g (t + w)))), ?_, ?_⟩
      · simp only [countLevel, ht, if_true, loadAcc, Prog.run, hg t t.2, hg (t + w) (by omega)]
      · intro _; simp
    · exact ⟨s, by simp [countLevel, ht, Prog.run], fun h => absurd h ht⟩
  refine ⟨fun t a => (t : Nat) < w ∧ (a = .shared b t ∨ a = .shared b (t + w)),
    fun t a => (t : Nat) < w ∧ a = .shared b t, ?_, ?_, ?_, ?_, ?_⟩
  · rintro t a ⟨h1, h2⟩; exact ⟨h1, .inl h2⟩
  · rintro i j a hij ⟨hi, rfl⟩ ⟨hj, h | h⟩
    · simp only [RAddr.shared.injEq, true_and] at h
      exact hij (Fin.ext h)
    · simp only [RAddr.shared.injEq, true_and] at h
      omega
  · intro t
    simp only [countLevel]
    split
    · rename_i ht
      refine Prog.Within.load ⟨ht, .inl rfl⟩ fun v => ?_
      cases v with
      | acc y =>
        refine Prog.Within.load ⟨ht, .inr rfl⟩ fun v => ?_
        cases v with
        | acc z => exact Prog.Within.store ⟨ht, rfl⟩ (.ret _)
        | val v => exact .fault
        | byte v => exact .fault
      | val v => exact .fault
      | byte v => exact .fault
    · exact .ret _
  · intro t
    obtain ⟨s1, h1, _⟩ := hrun t
    exact ⟨_, h1⟩
  · intro y s' hag hfr
    refine ⟨fun a ha => ?_, fun t ht => ?_⟩
    · rw [hfr a (fun i h => ha _ _ h.2)]
      exact hE a ha
    · unfold RKernel.level
      by_cases hlt : t < w
      · rw [if_pos hlt]
        obtain ⟨s1, h1, h2⟩ := hrun ⟨t, ht⟩
        obtain ⟨u, hu, hau⟩ := hag ⟨t, ht⟩
        rw [h1] at hu
        have hu2 := congrArg Prod.snd (Outcome.ok.inj hu)
        simp only at hu2
        rw [hau _ ⟨hlt, .inl rfl⟩, ← hu2]
        exact h2 hlt
      · rw [if_neg hlt, hfr _ ?_]
        · exact hg t ht
        · rintro i ⟨hi, h⟩
          simp only [RAddr.shared.injEq, true_and] at h
          omega

theorem countLevels_ok {g : Nat → U32} (ws : List Nat) (hw : ∀ w ∈ ws, 2 * w ≤ 256) :
    PhasesOk (ws.map (countLevel (V := V) b)) (CountMid s0 b g)
      (CountMid s0 b (ws.foldl (RKernel.level (· + ·)) g)) := by
  induction ws generalizing g with
  | nil => exact fun _ _ h => h
  | cons w ws ih =>
    exact ⟨CountMid s0 b (RKernel.level (· + ·) g w),
      fun x s h => countLevel_phase (hw w (by simp)) h, ih fun v hv => hw v (by simp [hv])⟩

theorem countLast_phase {g : Nat → U32} {x : Fin 256 → U32} {s : Mem RAddr (RCell V U32)}
    (h : CountMid s0 b g x s) :
    PhaseRun (fun t : Fin 256 => countLast (V := V) b t (x t)) s (fun y _ => y 0 = g 0) := by
  obtain ⟨hE, hg⟩ := h
  have hrun : ∀ t : Fin 256, ∃ v, (countLast b t (x t)).run s = .ok (v, s) ∧ (t = 0 → v = g 0) := by
    intro t
    by_cases ht : t.1 = 0
    · exact ⟨g 0, by simp [countLast, ht, loadAcc, Prog.run, hg 0], fun _ => rfl⟩
    · exact ⟨x t, by simp [countLast, ht, Prog.run], fun e => absurd (congrArg Fin.val e) ht⟩
  refine ⟨fun _ a => a = .shared b 0, fun _ _ => False, fun _ _ h => h.elim,
    fun _ _ _ _ h => h.elim, ?_, ?_, ?_⟩
  · intro t
    simp only [countLast]
    split
    · refine Prog.Within.load rfl fun v => ?_
      cases v with
      | acc y => exact .ret _
      | val v => exact .fault
      | byte v => exact .fault
    · exact .ret _
  · intro t
    obtain ⟨v, h1, _⟩ := hrun t
    exact ⟨_, h1⟩
  · intro y s' hag _
    obtain ⟨v, h1, h2⟩ := hrun 0
    obtain ⟨u, hu, _⟩ := hag 0
    rw [h1] at hu
    have hu1 := congrArg Prod.fst (Outcome.ok.inj hu)
    exact hu1.symm.trans (h2 rfl)

/-- The sum of a block. -/
theorem countPhases_ok
    (hX : ∀ n < numel, s0 (elementAt a (startIndex a.shape n).1) =
      some (.val (X (indexOf a.shape n)))) (hG : 0 < G) :
    PhasesOk (countPhases a truth G numel b)
      (fun _ s => SameData s0 s ∧ ∀ t < 256, ∃ v, s (.shared b t) = some v)
      (fun y _ => y 0 = BitVec.ofNat 32 (((List.range 256).map fun t =>
        trues truth X a.shape (gridStride (G * 256) numel (b * 256 + t))).sum)) := by
  refine ⟨_, fun x s h => countFill_phase (truth := truth) (X := X) hX hG h.1 h.2, ?_⟩
  refine PhasesOk.append (countLevels_ok (g := fun t => BitVec.ofNat 32
      (trues truth X a.shape (gridStride (G * 256) numel (b * 256 + t))))
    (RKernel.halvings 256 (256 / 2)) fun w hw => ?_) ?_
  · have := RKernel.halvings_le 256 (256 / 2) w hw
    omega
  · refine ⟨_, fun x s h => countLast_phase h, fun y s h => ?_⟩
    refine h.trans ?_
    have := RKernel.root_fold (Acc := U32) (· + ·) 0 (fun x => by simp) 8 256 (by omega)
      (fun t => BitVec.ofNat 32
        (trues truth X a.shape (gridStride (G * 256) numel (b * 256 + t))))
    refine (this.trans ?_)
    have key : ∀ (l : List Nat) (f : Nat → Nat),
        (l.map fun t => BitVec.ofNat 32 (f t)).foldr (· + ·) 0 = BitVec.ofNat 32 (l.map f).sum := by
      intro l f
      induction l with
      | nil => rfl
      | cons x xs ih => simp only [List.map_cons, List.foldr_cons, List.sum_cons, ih, BitVec.ofNat_add]
    exact key _ _

theorem countPhases_within :
    ∀ p ∈ countPhases a truth G numel b, ∀ i y, Prog.Within
      (fun a => (∃ t, a = .shared b t) ∨ ∀ b t, a ≠ .shared b t) (fun a => ∃ t, a = .shared b t)
      (p i y) := by
  intro p hp i y
  simp only [countPhases, List.mem_cons, List.mem_append, List.mem_map, List.not_mem_nil,
    or_false] at hp
  rcases hp with rfl | ⟨w, _, rfl⟩ | rfl
  · refine Prog.Within.bind ((countLoop_within a truth _ _).mono (fun _ h => .inr h)
      (fun _ h => h.elim)) fun c => Prog.Within.store ⟨_, rfl⟩ (.ret _)
  · simp only [countLevel]
    split
    · refine Prog.Within.load (.inl ⟨_, rfl⟩) fun v => ?_
      cases v with
      | acc y =>
        refine Prog.Within.load (.inl ⟨_, rfl⟩) fun v => ?_
        cases v with
        | acc z => exact Prog.Within.store ⟨_, rfl⟩ (.ret _)
        | val v => exact .fault
        | byte v => exact .fault
      | val v => exact .fault
      | byte v => exact .fault
    · exact .ret _
  · simp only [countLast]
    split
    · refine Prog.Within.load (.inl ⟨_, rfl⟩) fun v => ?_
      cases v with
      | acc y => exact .ret _
      | val v => exact .fault
      | byte v => exact .fault
    · exact .ret _

theorem countPhases_bounded :
    ∀ p ∈ countPhases a truth G numel b, Phase.Bounded p := by
  intro p hp
  simp only [countPhases, List.mem_cons, List.mem_append, List.mem_map, List.not_mem_nil,
    or_false] at hp
  rcases hp with rfl | ⟨w, _, rfl⟩ | rfl
  · refine ⟨numel + 1, fun i x => Prog.Bounded.bind ((countLoop_bounded a truth _ _).mono ?_)
      fun c => Prog.Bounded.store (.ret 0 _)⟩
    unfold gridStride
    exact (List.length_filterMap_le _ _).trans (by simp)
  · refine ⟨3, fun i x => ?_⟩
    simp only [countLevel]
    split
    · refine Prog.Bounded.load fun v => ?_
      cases v with
      | acc y =>
        refine Prog.Bounded.load fun v => ?_
        cases v with
        | acc z => exact Prog.Bounded.store (.ret 0 _)
        | val v => exact .fault _
        | byte v => exact .fault _
      | val v => exact .fault _
      | byte v => exact .fault _
    · exact .ret _ _
  · refine ⟨1, fun i x => ?_⟩
    simp only [countLast]
    split
    · refine Prog.Bounded.load fun v => ?_
      cases v with
      | acc y => exact .ret _ _
      | val v => exact .fault _
      | byte v => exact .fault _
    · exact .ret _ _

end Block

/-! ## The whole launch -/

theorem sum_blocks (f : Nat → Nat) (G : Nat) :
    ∑ b ∈ Finset.range G, ((List.range 256).map fun t => f (b * 256 + t)).sum =
      ((List.range (G * 256)).map f).sum := by
  induction G with
  | zero => simp
  | succ G ih =>
    rw [Finset.sum_range_succ, ih, Nat.add_mul, Nat.one_mul, List.range_add, List.map_append,
      List.sum_append, List.map_map]
    rfl

/-- Together the threads count every number once. -/
theorem trues_total (truth : V → Bool) (X : List Int → V) (shape : List Int) {G numel : Nat}
    (hG : 0 < G) :
    ∑ b ∈ Finset.range G, ((List.range 256).map fun t =>
      trues truth X shape (gridStride (G * 256) numel (b * 256 + t))).sum =
      trues truth X shape (List.range numel) := by
  rw [sum_blocks fun i => trues truth X shape (gridStride (G * 256) numel i)]
  unfold trues
  rw [← (RKernel.gridStride_perm (B := G * 256) (n := numel) (by omega)).countP_eq,
    List.countP_flatMap]
  rfl

/-- The numbers unravel to every index once. -/
theorem trues_enumerates (truth : V → Bool) (X : List Int → V) {a : Arr}
    (hpos : ∀ s ∈ a.shape, 0 < s) {l : List (List Int)} (hl : Stat.Enumerates a.shape [] [0] l) :
    trues truth X a.shape (List.range a.numel.toNat) = l.countP fun j => truth (X j) := by
  have hm : Stat.Enumerates a.shape [] [0]
      ((List.range (cells (sizeDims a.shape))).map (unravel (sizeDims a.shape))) := by
    constructor
    · refine List.Nodup.map_on ?_ List.nodup_range
      intro i hi j hj he
      simp only [List.mem_range] at hi hj
      exact unravel_inj hi hj he
    · intro j
      simp only [List.mem_map, List.mem_range]
      constructor
      · rintro ⟨k, hk, rfl⟩
        exact ⟨valid_unravel (sizeDims_size _) hk, by simp [Stat.remaining, Stat.orUnit]⟩
      · rintro ⟨hj, _⟩
        have hb : InBox (sizeDims a.shape) j := by rw [inBox_iff, sizeDims_size]; exact hj
        exact ⟨_, ravel_lt hb, unravel_ravel hb⟩
  rw [(Stat.enumerates_perm hl hm).countP_eq, List.countP_map, ← cells_numel hpos]
  unfold trues
  refine List.countP_congr fun n hn => ?_
  rw [indexOf_unravel hpos (List.mem_range.1 hn)]
  rfl

theorem countGrid_pos {n : Int} (h : 0 < n) : 0 < countGrid n := by
  unfold countGrid
  rw [Int.tdiv_eq_ediv_of_nonneg (by omega)]
  omega

theorem countGrid_nonpos {n : Int} (h : n ≤ 0) : countGrid n = 0 := by
  unfold countGrid
  have : (n + 255).tdiv 256 ≤ 0 := by
    rcases Int.lt_or_le (n + 255) 0 with h1 | h1
    · obtain ⟨m, hm⟩ : ∃ m, n + 255 = -m := ⟨-(n + 255), by omega⟩
      rw [hm, Int.neg_tdiv, Int.tdiv_eq_ediv_of_nonneg (by omega)]
      omega
    · rw [Int.tdiv_eq_ediv_of_nonneg h1]; omega
  omega

theorem count_launch (truth : V → Bool) (h : Heap V) (a : Arr) (X : List Int → V)
    (junk : Nat → Nat → U32) (n : Int) (hn : 0 < n)
    (hX : ∀ k < n.toNat, h.mem a.blk (sdot a.strides (indexOf a.shape k)) =
      some (X (indexOf a.shape k))) :
    ¬ Exec CountStep (countBlocks truth a n) (countStart h junk n) .ub ∧
    Terminates CountStep (countBlocks truth a n) (countStart h junk n) ∧
    (∃ r, Completes CountStep (countBlocks truth a n) (countStart h junk n) r) ∧
    ∀ r, Completes CountStep (countBlocks truth a n) (countStart h junk n) r →
      r.2 = BitVec.ofNat 32 (trues truth X a.shape (List.range n.toNat)) := by
  have hG := countGrid_pos hn
  have hs0 : ∀ k < n.toNat, (countStart h junk n).1 (elementAt a (startIndex a.shape k).1) =
      some (.val (X (indexOf a.shape k))) := by
    intro k hk
    simp only [countStart, reduceMem, elementAt]
    rw [show ((startIndex a.shape k).1.map fun (i : Nat) => (i : Int)) = indexOf a.shape k from rfl,
      hX k hk]
    rfl
  have := add_launch (β := Fin (countGrid n)) (s := (countStart h junk n).1)
    (x := fun _ _ => (0 : U32))
    (phases := fun b => countPhases a truth (countGrid n) n.toNat b)
    (X := fun b a => (∃ t, a = .shared b t) ∨ ∀ b t, a ≠ .shared b t)
    (W := fun b a => ∃ t, a = .shared b t)
    (P := fun b _ s => SameData (countStart h junk n).1 s ∧
      ∀ t < 256, ∃ v, s (.shared b t) = some v)
    (Q := fun b y _ => y 0 = BitVec.ofNat 32 (((List.range 256).map fun t =>
      trues truth X a.shape (gridStride (countGrid n * 256) n.toNat (b * 256 + t))).sum))
    (fun y : Fin 256 → U32 => y 0) (0 : U32) (fun _ _ h => .inl h)
    (by
      rintro b c a hbc ⟨t, rfl⟩ (⟨t', h'⟩ | h')
      · simp only [RAddr.shared.injEq] at h'
        exact hbc (Fin.ext h'.1)
      · exact h' _ _ rfl)
    (fun b => countPhases_within) (fun b => countPhases_bounded)
    (fun b => countPhases_ok hs0 hG)
    (fun b => ⟨Agree.refl _ _, fun t ht => ⟨.acc (junk b t), by
      simp [countStart, reduceMem, b.2, ht]⟩⟩)
    (fun b => BitVec.ofNat 32 (((List.range 256).map fun t =>
      trues truth X a.shape (gridStride (countGrid n * 256) n.toNat (b * 256 + t))).sum))
    (fun b y t h => h)
  obtain ⟨h1, h2, h3, h4⟩ := this
  refine ⟨h1, h2, h3, fun r hr => (h4 r hr).trans ?_⟩
  rw [← trues_total truth X a.shape hG, zero_add]
  rw [Fin.sum_univ_eq_sum_range (fun b => BitVec.ofNat 32 (((List.range 256).map fun t =>
      trues truth X a.shape (gridStride (countGrid n * 256) n.toNat (b * 256 + t))).sum))]
  generalize countGrid n = G
  have key : ∀ (f : Nat → Nat) (m : Nat), ∑ b ∈ Finset.range m, BitVec.ofNat 32 (f b) =
      BitVec.ofNat 32 (∑ b ∈ Finset.range m, f b) := by
    intro f m
    induction m with
    | zero => rfl
    | succ m ih => rw [Finset.sum_range_succ, Finset.sum_range_succ, ih, BitVec.ofNat_add]
  exact key _ _

/-- The same array without its offsets. -/
def noOffset (a : Arr) : Arr := { a with dims := a.dims.map fun d => { d with offset := 0 } }

theorem noOffset_shape (a : Arr) : (noOffset a).shape = a.shape := by
  simp [noOffset, Arr.shape, Function.comp_def]

theorem noOffset_strides (a : Arr) : (noOffset a).strides = a.strides := by
  simp [noOffset, Arr.strides, Function.comp_def]

theorem noOffset_base (a : Arr) : (noOffset a).base = 0 := by
  unfold noOffset Arr.base
  simp only [List.map_map, Function.comp_def]
  induction a.dims with
  | nil => rfl
  | cons d ds ih => simpa using ih

theorem noOffset_contains {h : Heap V} {a : Arr} {X : List Int → V} (h0 : a.base = 0)
    (hX : h.Contains a X) : h.Contains (noOffset a) X := by
  intro idx hv
  have hl : idx.length = a.dims.length := by
    rw [hv.length_eq, noOffset_shape, shape_length]
  have := hX idx (by rw [← noOffset_shape]; exact hv)
  unfold Heap.get at this ⊢
  rw [← addr_no_offset (noOffset_base a) (by rw [hl]; simp [noOffset]), noOffset_strides,
    addr_no_offset h0 hl]
  exact this

/-- What `count_true` returns for any array or slice: the number of true elements of the slice of the
same shape and strides *that begins at the first element of the allocation*, because the offsets are
read but not used (`count.cuh:66`, `32-38`). -/
theorem C86_offset_ignored (truth : V → Bool) (h : Heap V) (a : Arr) (X : List Int → V)
    (junk : Nat → Nat → U32) (hpos : ∀ s ∈ a.shape, 0 < s) (hsize : a.shape.prod < 2 ^ 31)
    (hX : h.Contains (noOffset a) X) {l : List (List Int)}
    (hl : Stat.Enumerates a.shape [] [0] l) :
    (∃ o, GpuCount truth h a junk o) ∧ GpuCountEnds truth h a junk ∧
    ∀ o, GpuCount truth h a junk o → o = .ok (l.countP (fun j => truth (X j)) : Int) := by
  have hnum : a.numel = a.shape.prod := by
    unfold Arr.numel
    rw [List.prod_eq_foldl]
  have hn : Types.numel a.shape = .ok a.numel := by
    rw [hnum]; exact Types.C73_numel_partial _ hpos hsize
  have hn0 : 0 < a.numel := by have := numel_pos hpos; omega
  have hcell : ∀ k < a.numel.toNat, h.mem a.blk (sdot a.strides (indexOf a.shape k)) =
      some (X (indexOf a.shape k)) := by
    intro k hk
    rw [← cells_numel hpos] at hk
    have hv : ValidIdx a.shape (indexOf a.shape k) := by
      rw [indexOf_unravel hpos hk]
      exact valid_unravel (sizeDims_size _) hk
    rw [← noOffset_strides, addr_no_offset (noOffset_base a)
      (by rw [hv.length_eq, shape_length]; simp [noOffset])]
    exact hX _ (by rw [noOffset_shape]; exact hv)
  obtain ⟨h1, h2, ⟨r, h3⟩, h4⟩ := count_launch truth h a X junk a.numel hn0 hcell
  refine ⟨⟨_, .done hn h3⟩, ?_, ?_⟩
  · intro n hn'
    rw [hn] at hn'
    cases hn'
    exact h2
  · intro o ho
    cases ho with
    | numelUb hn' => rw [hn] at hn'; cases hn'
    | fault hn' hx =>
      rw [hn] at hn'
      cases hn'
      exact absurd hx h1
    | done hn' hx =>
      rw [hn] at hn'
      cases hn'
      rw [h4 _ hx, trues_enumerates truth X hpos hl, BitVec.toNat_ofNat]
      congr 1
      rw [Nat.mod_eq_of_lt]
      have : l.countP (fun j => truth (X j)) ≤ a.numel.toNat := by
        rw [← trues_enumerates truth X hpos hl]
        exact List.countP_le_length.trans (by simp)
      omega

/-- **C86.** `count_true` of an array on a device: every schedule ends, without leaving an
allocation, with the number of its true elements, each counted once, as on the CPU
(`Stat.C53_count_true`). `l` is any list of all indices. Missing from C86: slices that do not begin at
the first element (`C86_slice_wrong`) and arrays of 2³¹ elements or more (`C86_not_positive`). -/
theorem C86_count_partial (truth : V → Bool) (h : Heap V) (a : Arr) (X : List Int → V)
    (junk : Nat → Nat → U32) (hpos : ∀ s ∈ a.shape, 0 < s) (hsize : a.shape.prod < 2 ^ 31)
    (h0 : a.base = 0) (hX : h.Contains a X) {l : List (List Int)}
    (hl : Stat.Enumerates a.shape [] [0] l) :
    (∃ o, GpuCount truth h a junk o) ∧ GpuCountEnds truth h a junk ∧
    ∀ o, GpuCount truth h a junk o → o = .ok (l.countP (fun j => truth (X j)) : Int) :=
  C86_offset_ignored truth h a X junk hpos hsize (noOffset_contains h0 hX) hl

/-- An allocation with the elements 5, 0, 0. -/
def heap500 : Heap Int :=
  ⟨fun b i => if b = 0 then (if i = 0 then some 5 else if i = 1 ∨ i = 2 then some 0 else none)
    else none, 1⟩

theorem valid_two {j : List Int} (hv : ValidIdx [2] j) : j = [0] ∨ j = [1] := by
  cases hv with
  | cons h1 h2 =>
    cases h2
    rename_i i
    have : i = 0 ∨ i = 1 := by omega
    rcases this with rfl | rfl <;> simp

/-- All indices of an array with two elements. -/
theorem two_enumerates : Stat.Enumerates [2] [] [0] [[0], [1]] := by
  refine ⟨by decide, fun j => ?_⟩
  constructor
  · intro hj
    simp only [List.mem_cons, List.not_mem_nil, or_false] at hj
    rcases hj with rfl | rfl <;>
      exact ⟨.cons (by decide) .nil, by decide⟩
  · rintro ⟨hv, -⟩
    rcases valid_two hv with rfl | rfl <;> simp

/-- **C86 (violation).** The last two of the elements 5, 0, 0: no element is true, the CPU returns 0,
and every schedule of the device returns 1. -/
theorem C86_slice_wrong (junk : Nat → Nat → U32) :
    Stat.countTrue (fun v => decide (v ≠ 0)) heap500 ⟨0, [⟨2, 1, 1⟩]⟩ = .ok 0 ∧
    (∃ o, GpuCount (fun v => decide (v ≠ 0)) heap500 ⟨0, [⟨2, 1, 1⟩]⟩ junk o) ∧
    ∀ o, GpuCount (fun v => decide (v ≠ 0)) heap500 ⟨0, [⟨2, 1, 1⟩]⟩ junk o → o = .ok 1 := by
  refine ⟨by decide +kernel, ?_⟩
  obtain ⟨h1, -, h2⟩ := C86_offset_ignored (fun v : Int => decide (v ≠ 0)) heap500
    ⟨0, [⟨2, 1, 1⟩]⟩ (fun idx => if idx = [0] then 5 else 0) junk (by decide) (by decide)
    (by
      intro idx hv
      rcases valid_two hv with rfl | rfl <;> decide)
    two_enumerates
  exact ⟨h1, h2⟩

/-- Concrete case for `C86_count_partial`: the first two of the elements 5, 0, 0. -/
example (junk : Nat → Nat → U32) :
    ∀ o, GpuCount (fun v => decide (v ≠ 0)) heap500 ⟨0, [⟨2, 1, 0⟩]⟩ junk o → o = .ok 1 := by
  obtain ⟨-, -, h2⟩ := C86_count_partial (fun v : Int => decide (v ≠ 0)) heap500
    ⟨0, [⟨2, 1, 0⟩]⟩ (fun idx => if idx = [0] then 5 else 0) junk (by decide) (by decide)
    (by decide) (by
      intro idx hv
      rcases valid_two hv with rfl | rfl <;> decide)
    two_enumerates
  exact h2

/-- **C86 (violation).** When `numel()` comes out as 0 or negative, nothing is counted: that is right
for an empty array, and wrong for one with 2³² elements. -/
theorem C86_not_positive (truth : V → Bool) (h : Heap V) (a : Arr) (junk : Nat → Nat → U32) (n : Int)
    (hn : Types.numel a.shape = .ok n) (hneg : n ≤ 0) (o : Outcome Int)
    (ho : GpuCount truth h a junk o) : o = .ok 0 := by
  have hE : IsEmpty (Fin (countGrid n)) := by rw [countGrid_nonpos hneg]; infer_instance
  cases ho with
  | numelUb hn' => rw [hn] at hn'; cases hn'
  | fault hn' hx =>
    rw [hn] at hn'
    cases hn'
    cases hx with
    | step i => exact hE.elim i
    | fault i => exact hE.elim i
  | done hn' hx =>
    rw [hn] at hn'
    cases hn'
    obtain ⟨ls, hx, _⟩ := hx
    cases hx with
    | stop => rfl
    | step i => exact hE.elim i

/-- Concrete case: every element of a 65536 by 65536 array is true, and the count is 0. -/
example (h : Heap V) (junk : Nat → Nat → U32) (o : Outcome Int)
    (ho : GpuCount (fun _ => true) h (dense 0 [65536, 65536]) junk o) : o = .ok 0 :=
  C86_not_positive _ h _ junk 0 (by decide) (by decide) o ho

end Bliss.Gpu
