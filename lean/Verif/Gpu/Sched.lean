import Verif.Base
import Mathlib.Logic.Function.Basic
import Mathlib.Data.List.Nodup
import Mathlib.Tactic.Ring
import Mathlib.Tactic.Linarith

/-!
# Executions of a CUDA kernel

A kernel launch is a family of threads, each with private state `L`, acting on shared memory
`σ`. One step of one thread is one access to shared memory (an atomic operation is one step).
An execution takes steps of the threads in any order. A step outside an allocation is undefined
behaviour of the whole launch.

The model assumes that accesses to shared memory by different threads are interleaved, that is,
every step sees the memory left by the steps before it. A kernel may weaken this for its own
reads by offering several outcomes of a step.
-/

namespace Bliss.Gpu

/-- `K l s r`: a thread in private state `l` with memory `s` can take a step whose result is
`r`. A thread without results has returned. -/
abbrev Kernel (L σ : Type) := L → σ → Outcome (L × σ) → Prop

/-- A thread has returned: it can take no step in any memory. -/
def Returned {L σ : Type} (K : Kernel L σ) (l : L) : Prop := ∀ s r, ¬ K l s r

/-- The executions of a launch: a finite sequence of steps of the threads, in any order. -/
inductive Exec {ι L σ : Type} [DecidableEq ι] (K : Kernel L σ) :
    (ι → L) → σ → Outcome ((ι → L) × σ) → Prop
  | stop (ls : ι → L) (s : σ) : Exec K ls s (.ok (ls, s))
  | step {ls : ι → L} {s s' : σ} {l' : L} {o : Outcome ((ι → L) × σ)} (i : ι)
      (h : K (ls i) s (.ok (l', s'))) (rest : Exec K (Function.update ls i l') s' o) :
      Exec K ls s o
  | fault {ls : ι → L} {s : σ} (i : ι) (h : K (ls i) s .ub) : Exec K ls s .ub

/-- A complete execution: every thread has returned, the memory is `s'`. -/
def Completes {ι L σ : Type} [DecidableEq ι] (K : Kernel L σ) (ls : ι → L) (s s' : σ) : Prop :=
  ∃ ls', Exec K ls s (.ok (ls', s')) ∧ ∀ i, Returned K (ls' i)

section Rely
variable {ι L σ : Type} [DecidableEq ι] {K : Kernel L σ}

/-- Rely-guarantee rule: the memory invariant `I` and the thread assertions `T i` hold in every
reachable state, and no step is undefined. `G i` is what thread `i` may do to the memory. -/
theorem Exec.rely {I : σ → Prop} {T : ι → L → σ → Prop} {G : ι → σ → σ → Prop}
    (hstep : ∀ i l s l' s', I s → T i l s → K l s (.ok (l', s')) → I s' ∧ T i l' s' ∧ G i s s')
    (hsafe : ∀ i l s, I s → T i l s → ¬ K l s .ub)
    (hstable : ∀ i j l s s', i ≠ j → I s → I s' → G i s s' → T j l s → T j l s')
    {ls : ι → L} {s : σ} {o : Outcome ((ι → L) × σ)} (h : Exec K ls s o)
    (hI : I s) (hT : ∀ i, T i (ls i) s) :
    ∃ ls' s', o = .ok (ls', s') ∧ I s' ∧ ∀ i, T i (ls' i) s' := by
  induction h with
  | stop ls s => exact ⟨ls, s, rfl, hI, hT⟩
  | @step ls s s' l' o i hk _ ih =>
    obtain ⟨h1, h2, h3⟩ := hstep i _ _ _ _ hI (hT i) hk
    refine ih h1 fun j => ?_
    by_cases hj : j = i
    · subst hj; simpa using h2
    · rw [Function.update_of_ne hj]
      exact hstable i j _ _ _ (Ne.symm hj) hI h1 h3 (hT j)
  | @fault ls s i hk => exact absurd hk (hsafe i _ _ hI (hT i))

/-- Appending executions. -/
theorem Exec.trans {ls ls' : ι → L} {s s' : σ} {o : Outcome ((ι → L) × σ)}
    (h : Exec K ls s (.ok (ls', s'))) (h' : Exec K ls' s' o) : Exec K ls s o := by
  generalize hr : (Outcome.ok (ls', s') : Outcome ((ι → L) × σ)) = r at h
  induction h with
  | stop ls s => cases hr; exact h'
  | step i hk _ ih => exact .step i hk (ih hr)
  | fault i hk => cases hr

end Rely

/-- Termination: if every step of a thread decreases a measure of the whole launch, an
execution has at most that many steps; in particular some execution from any state completes
whenever unfinished threads can always step. -/
theorem exists_complete {ι L σ : Type} [DecidableEq ι] {K : Kernel L σ}
    (J : (ι → L) → σ → Prop) (μ : (ι → L) → σ → Nat)
    (hstep : ∀ ls s i l' s', J ls s → K (ls i) s (.ok (l', s')) →
      J (Function.update ls i l') s' ∧ μ (Function.update ls i l') s' < μ ls s)
    (hprog : ∀ ls s i, J ls s → Returned K (ls i) ∨ ∃ l' s', K (ls i) s (.ok (l', s')))
    (ls : ι → L) (s : σ) (hJ : J ls s) : ∃ s', Completes K ls s s' := by
  induction hn : μ ls s using Nat.strong_induction_on generalizing ls s with
  | _ n ih =>
    by_cases hall : ∀ i, Returned K (ls i)
    · exact ⟨s, ls, .stop ls s, hall⟩
    · push Not at hall
      obtain ⟨i, hi⟩ := hall
      obtain h | ⟨l', s', h⟩ := hprog ls s i hJ
      · exact absurd h hi
      · obtain ⟨h1, h2⟩ := hstep ls s i l' s' hJ h
        obtain ⟨s'', ls'', h3, h4⟩ := ih _ (hn ▸ h2) _ _ h1 rfl
        exact ⟨s'', ls'', .step i h h3, h4⟩

/-! ## Grid-stride loops -/

/-- Models the loop header `for (n = tid; n < numel; n += G)` shared by all kernels
(`bliss/drift_search/kernels/connected_components_cuda.cu` 38–41, 131–133, 170–172,
`bliss/drift_search/kernels/local_maxima_cuda.cu` 26–30,
`bliss/drift_search/kernels/drift_integration_cuda.cu` 40–46): the indices visited by thread
`tid` of `G` threads, in order. Indices are mathematical integers. -/
def gridStride (G numel tid : Nat) : List Nat :=
  (List.range numel).filterMap fun k =>
    if tid + k * G < numel then some (tid + k * G) else none

theorem mem_gridStride {G numel tid n : Nat} (hG : 0 < G) :
    n ∈ gridStride G numel tid ↔ n < numel ∧ ∃ k, n = tid + k * G := by
  simp only [gridStride, List.mem_filterMap, List.mem_range, Option.ite_none_right_eq_some,
    Option.some.injEq]
  constructor
  · rintro ⟨k, _, h, rfl⟩; exact ⟨h, k, rfl⟩
  · rintro ⟨h, k, rfl⟩
    have : k ≤ k * G := Nat.le_mul_of_pos_right k hG
    exact ⟨k, by omega, h, rfl⟩

/-- Every index is visited by the thread of its residue. -/
theorem mem_gridStride_mod {G numel n : Nat} (hG : 0 < G) (h : n < numel) :
    n ∈ gridStride G numel (n % G) :=
  (mem_gridStride hG).2 ⟨h, n / G, by rw [Nat.mul_comm]; exact (Nat.mod_add_div n G).symm⟩

/-- An index is visited only by the thread of its residue. -/
theorem gridStride_owner {G numel tid n : Nat} (hG : 0 < G) (ht : tid < G)
    (h : n ∈ gridStride G numel tid) : tid = n % G := by
  obtain ⟨_, k, rfl⟩ := (mem_gridStride hG).1 h
  rw [Nat.add_mul_mod_self_right, Nat.mod_eq_of_lt ht]

theorem gridStride_nodup {G numel tid : Nat} (hG : 0 < G) : (gridStride G numel tid).Nodup := by
  refine List.Nodup.filterMap ?_ List.nodup_range
  intro a a' b hb hb'
  simp only [Option.mem_def, Option.ite_none_right_eq_some, Option.some.injEq] at hb hb'
  have : a * G = a' * G := by omega
  exact Nat.eq_of_mul_eq_mul_right hG this

/-- Every index below `numel` is visited exactly once, by exactly one of the `G` threads. -/
theorem gridStride_partition {G numel : Nat} (hG : 0 < G) {n : Nat} (h : n < numel) :
    ∃! tid, tid < G ∧ n ∈ gridStride G numel tid :=
  ⟨n % G, ⟨Nat.mod_lt _ hG, mem_gridStride_mod hG h⟩,
    fun _ ht => gridStride_owner hG ht.1 ht.2⟩

example : gridStride 4 10 1 = [1, 5, 9] := by decide

end Bliss.Gpu

namespace Bliss.Gpu

/-- One step of a launch. -/
def SysStep {ι L σ : Type} [DecidableEq ι] (K : Kernel L σ) (x y : (ι → L) × σ) : Prop :=
  ∃ i l', K (x.1 i) x.2 (.ok (l', y.2)) ∧ y.1 = Function.update x.1 i l'

theorem SysStep.exec {ι L σ : Type} [DecidableEq ι] {K : Kernel L σ} {x y : (ι → L) × σ}
    (h : SysStep K x y) : Exec K x.1 x.2 (.ok y) := by
  obtain ⟨i, l', h, he⟩ := h
  obtain ⟨y1, y2⟩ := y
  exact .step i h (by rw [← he]; exact .stop _ _)

/-- A launch always terminates: no infinite sequence of steps starts from the given state. -/
def Terminates {ι L σ : Type} [DecidableEq ι] (K : Kernel L σ) (ls : ι → L) (s : σ) : Prop :=
  ¬ ∃ f : Nat → (ι → L) × σ, f 0 = (ls, s) ∧ ∀ k, SysStep K (f k) (f (k + 1))

/-- A measure that every step from a reachable state decreases gives termination. -/
theorem terminates_of_measure {ι L σ : Type} [DecidableEq ι] {K : Kernel L σ} {ls : ι → L} {s : σ}
    (J : (ι → L) × σ → Prop) (μ : (ι → L) × σ → Nat) (h0 : J (ls, s))
    (hstep : ∀ x y, J x → SysStep K x y → J y ∧ μ y < μ x) : Terminates K ls s := by
  rintro ⟨f, hf0, hf⟩
  have h : ∀ k, J (f k) ∧ μ (f k) + k ≤ μ (f 0) := by
    intro k
    induction k with
    | zero => exact ⟨hf0 ▸ h0, by omega⟩
    | succ k ih =>
      obtain ⟨h1, h2⟩ := hstep _ _ ih.1 (hf k)
      exact ⟨h1, by omega⟩
  have := (h (μ (f 0) + 1)).2
  omega

end Bliss.Gpu
