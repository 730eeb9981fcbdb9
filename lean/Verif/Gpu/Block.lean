import Verif.Gpu.Prog

/-!
# Blocks of threads that meet at barriers

A block is a family of threads that run the same list of phases and wait for each other after
each phase (`__syncthreads`). Within a phase the steps of the threads interleave freely; the
next phase begins when every thread has finished the current one. Several blocks run side by
side and share memory.

The rule of this file: if in every phase no thread touches what another thread writes, the
block behaves as if the threads of each phase had run one at a time, so a chain of assertions
from one barrier to the next is enough to know the outcome of every schedule.
-/

namespace Bliss.Gpu

variable {A V L ι : Type} [DecidableEq A] [DecidableEq ι]

/-- What one thread does between two barriers: a program that starts from the private state
the thread had at the last barrier. -/
abbrev Phase (ι A V L : Type) := ι → L → Prog A V L

/-- A block in execution: what every thread still has to do in this phase, and the phases that
remain. -/
structure BState (ι A V L : Type) where
  cur : ι → Prog A V L
  rest : List (Phase ι A V L)

/-- One step of a block: an access of one of its threads, or a barrier every thread has
reached. -/
inductive BlockStep : Kernel (BState ι A V L) (Mem A V)
  | thread {l : BState ι A V L} {s s' : Mem A V} {p : Prog A V L} (i : ι)
      (h : ProgStep (l.cur i) s (.ok (p, s'))) :
      BlockStep l s (.ok (⟨Function.update l.cur i p, l.rest⟩, s'))
  | fault {l : BState ι A V L} {s : Mem A V} (i : ι) (h : ProgStep (l.cur i) s .ub) :
      BlockStep l s .ub
  | barrier {cur : ι → Prog A V L} {p : Phase ι A V L} {ps : List (Phase ι A V L)} {s : Mem A V}
      (x : ι → L) (h : ∀ i, cur i = .ret (x i)) :
      BlockStep ⟨cur, p :: ps⟩ s (.ok (⟨fun i => p i (x i), ps⟩, s))

/-- A block before its first phase. -/
def BState.start (x : ι → L) (ps : List (Phase ι A V L)) : BState ι A V L :=
  ⟨fun i => .ret (x i), ps⟩

theorem blockStep_not_throws (l : BState ι A V L) (s : Mem A V) (e : Err) :
    ¬ BlockStep l s (.throws e) := fun h => by cases h

/-- A block that can take no step has nothing left to do. -/
theorem blockStep_progress (l : BState ι A V L) (s : Mem A V) :
    (∃ r, BlockStep l s r) ∨ (l.rest = [] ∧ ∃ x : ι → L, ∀ i, l.cur i = .ret (x i)) := by
  by_cases h : ∀ i, ∃ x, l.cur i = .ret x
  · choose x hx using h
    obtain ⟨cur, rest⟩ := l
    cases rest with
    | nil => exact .inr ⟨rfl, x, hx⟩
    | cons p ps => exact .inl ⟨_, .barrier x hx⟩
  · left
    simp only [not_forall, not_exists] at h
    obtain ⟨i, hi⟩ := h
    cases hp : l.cur i with
    | ret x => exact absurd hp (hi x)
    | load a k =>
      cases hs : s a with
      | none => exact ⟨_, .fault i (by rw [hp]; exact .loadBad hs)⟩
      | some v => exact ⟨_, .thread i (by rw [hp]; exact .load hs)⟩
    | store a v k =>
      cases hs : s a with
      | none => exact ⟨_, .fault i (by rw [hp]; exact .storeBad hs)⟩
      | some w => exact ⟨_, .thread i (by rw [hp]; exact .store hs)⟩
    | fault => exact ⟨_, .fault i (by rw [hp]; exact .fault)⟩

theorem returned_block {l : BState ι A V L} (h : Returned BlockStep l) :
    l.rest = [] ∧ ∃ x : ι → L, ∀ i, l.cur i = .ret (x i) := by
  rcases blockStep_progress l (fun _ => none) with ⟨r, hr⟩ | h'
  · exact absurd hr (h _ _)
  · exact h'

theorem block_returned {l : BState ι A V L} {x : ι → L} (hr : l.rest = [])
    (hx : ∀ i, l.cur i = .ret (x i)) : Returned BlockStep l := by
  intro s r h
  cases h with
  | thread i h => rw [hx] at h; cases h
  | fault i h => rw [hx] at h; cases h
  | barrier y h => cases hr

/-! ## The phase rule -/

/-- In this phase, from this memory, no thread touches what another thread writes and every
thread alone finishes; whatever the threads leave at what they touch satisfies `Q`. -/
def PhaseRun (cur : ι → Prog A V L) (s : Mem A V) (Q : (ι → L) → Mem A V → Prop) : Prop :=
  ∃ X W : ι → A → Prop, (∀ i a, W i a → X i a) ∧ (∀ i j a, i ≠ j → W i a → ¬ X j a) ∧
    (∀ i, Prog.Within (X i) (W i) (cur i)) ∧ (∀ i, ∃ r, (cur i).run s = .ok r) ∧
    ∀ x s', (∀ i, ∃ t, (cur i).run s = .ok (x i, t) ∧ Agree (X i) s' t) →
      (∀ a, (∀ i, ¬ W i a) → s' a = s a) → Q x s'

/-- A chain of assertions through the phases of a block. -/
def PhasesOk : List (Phase ι A V L) → ((ι → L) → Mem A V → Prop) →
    ((ι → L) → Mem A V → Prop) → Prop
  | [], P, Q => ∀ x s, P x s → Q x s
  | p :: ps, P, Q => ∃ R, (∀ x s, P x s → PhaseRun (fun i => p i (x i)) s R) ∧ PhasesOk ps R Q

omit [DecidableEq ι] in
theorem PhasesOk.append {ps qs : List (Phase ι A V L)} {P Q R : (ι → L) → Mem A V → Prop}
    (h : PhasesOk ps P R) (h' : PhasesOk qs R Q) : PhasesOk (ps ++ qs) P Q := by
  induction ps generalizing P with
  | nil =>
    cases qs with
    | nil => exact fun x s hP => h' x s (h x s hP)
    | cons q qs =>
      obtain ⟨T, h1, h2⟩ := h'
      exact ⟨T, fun x s hP => h1 x s (h x s hP), h2⟩
  | cons p ps ih =>
    obtain ⟨T, h1, h2⟩ := h
    exact ⟨T, h1, ih h2⟩

/-- The phase rule: a block alone, started where the first assertion holds, never has undefined
behaviour, and when it has returned the last assertion holds. -/
theorem block_alone {ps : List (Phase ι A V L)} {P Q : (ι → L) → Mem A V → Prop}
    (hps : PhasesOk ps P Q) {x : ι → L} {s : Mem A V} (hP : P x s)
    {o : Outcome (BState ι A V L × Mem A V)} (h : Alone BlockStep (.start x ps) s o) :
    o ≠ .ub ∧ ∀ l' s', o = .ok (l', s') → Returned BlockStep l' →
      ∃ x' : ι → L, (∀ i, l'.cur i = .ret (x' i)) ∧ Q x' s' := by
  have key : ∀ (l : BState ι A V L) (s : Mem A V) (o : Outcome (BState ι A V L × Mem A V)),
      Alone BlockStep l s o →
      (∃ cur0 s0 R, Exec ProgStep cur0 s0 (.ok (l.cur, s)) ∧ PhaseRun cur0 s0 R ∧
        PhasesOk l.rest R Q) →
      o ≠ .ub ∧ ∀ l' s', o = .ok (l', s') → Returned BlockStep l' →
      ∃ x' : ι → L, (∀ i, l'.cur i = .ret (x' i)) ∧ Q x' s' := by
    intro l s o h
    -- what has been done so far in this phase, completed
    have done : ∀ (l : BState ι A V L) (s : Mem A V) cur0 s0 R (x : ι → L),
        Exec ProgStep cur0 s0 (.ok (l.cur, s)) → PhaseRun cur0 s0 R →
        (∀ i, l.cur i = .ret (x i)) → R x s := by
      intro l s cur0 s0 R x hE ⟨X, W, hWX, hD, hw, hok, hQ⟩ hx
      obtain ⟨h1, h2⟩ := (hE.project (fun i => prog_footprint (hWX i)) hD hw (fun _ => s0)
        (fun _ => Agree.refl _ _)).1 _ _ rfl
      refine hQ x s (fun i => ?_) h2
      obtain ⟨t, h3, h4⟩ := h1 i
      rw [hx i] at h3
      exact ⟨t, (alone_run h3).1 _ _ rfl, h4⟩
    induction h with
    | stop l s =>
      rintro ⟨cur0, s0, R, hE, hR, hps⟩
      refine ⟨fun e => (by cases e), fun l' s' e hret => ?_⟩
      cases e
      obtain ⟨hnil, x, hx⟩ := returned_block hret
      rw [hnil] at hps
      exact ⟨x, hx, hps x s (done l s cur0 s0 R x hE hR hx)⟩
    | @step l l' s s' o hk _ ih =>
      rintro ⟨cur0, s0, R, hE, hR, hps⟩
      apply ih
      cases hk with
      | thread i h =>
        exact ⟨cur0, s0, R, hE.trans (.step i h (.stop _ _)), hR, hps⟩
      | barrier x h =>
        obtain ⟨T, h1, h2⟩ := hps
        exact ⟨_, s, T, .stop _ _, h1 x s (done _ s cur0 s0 R x hE hR h), h2⟩
    | @fault l s hk =>
      rintro ⟨cur0, s0, R, hE, ⟨X, W, hWX, hD, hw, hok, hQ⟩, hps⟩
      exfalso
      cases hk with
      | fault i h =>
        exact (raceFree hWX hD hw s0).1 hok (hE.trans (.fault i h))
  refine key _ s o h ⟨fun i => .ret (x i), s, P, .stop _ _, ?_, hps⟩
  refine ⟨fun _ _ => False, fun _ _ => False, fun _ _ h => h, fun _ _ _ _ h => h.elim,
    fun i => .ret _, fun i => ⟨_, rfl⟩, fun y s' h1 h2 => ?_⟩
  have hy : y = x := by
    funext i
    obtain ⟨t, ht, _⟩ := h1 i
    exact (congrArg Prod.fst (Outcome.ok.inj ht)).symm
  have hs : s' = s := funext fun a => h2 a fun _ h => h
  rw [hy, hs]; exact hP

/-! ## Footprint, termination -/

/-- All phases of a block stay within a footprint. -/
def BState.Within (X W : A → Prop) (l : BState ι A V L) : Prop :=
  (∀ i, Prog.Within X W (l.cur i)) ∧ ∀ p ∈ l.rest, ∀ i x, Prog.Within X W (p i x)

theorem block_footprint {X W : A → Prop} (hWX : ∀ a, W a → X a) :
    Footprint (BlockStep (ι := ι) (V := V) (L := L)) (BState.Within X W) X W where
  sub := hWX
  local_ok := by
    intro l s t l' s' hP hst hk
    cases hk with
    | thread i h =>
      obtain ⟨t', h1, h2⟩ := (prog_footprint hWX).local_ok _ _ _ _ _ (hP.1 i) hst h
      exact ⟨t', .thread i h1, h2⟩
    | barrier x h => exact ⟨t, .barrier x h, hst⟩
  local_ub := by
    intro l s t hP hst hk
    cases hk with
    | fault i h => exact .fault i ((prog_footprint hWX).local_ub _ _ _ (hP.1 i) hst h)
  pres := by
    intro l s l' s' hP hk
    cases hk with
    | thread i h =>
      refine ⟨fun j => ?_, hP.2⟩
      by_cases hj : j = i
      · subst hj
        simpa using (prog_footprint hWX).pres _ _ _ _ (hP.1 j) h
      · simpa [Function.update_of_ne hj] using hP.1 j
    | barrier x h =>
      exact ⟨fun i => hP.2 _ (by simp) i _, fun q hq => hP.2 q (by simp [hq])⟩
  frame := by
    intro l s l' s' hP hk a ha
    cases hk with
    | thread i h => exact (prog_footprint hWX).frame _ _ _ _ (hP.1 i) h a ha
    | barrier x h => rfl

/-- A phase in which every thread makes boundedly many accesses. -/
def Phase.Bounded (p : Phase ι A V L) : Prop := ∃ n, ∀ i x, Prog.Bounded n (p i x)

/-- A block whose phases are all bounded. -/
def BState.Bounded (l : BState ι A V L) : Prop :=
  (∀ i, ∃ n, Prog.Bounded n (l.cur i)) ∧ ∀ p ∈ l.rest, Phase.Bounded p

open Classical in
/-- A bound on the steps of a phase, the barrier included. -/
noncomputable def Phase.cost [Fintype ι] (p : Phase ι A V L) : Nat :=
  if h : Phase.Bounded p then 1 + Fintype.card ι * Nat.find h else 0

/-- A bound on the steps a block still has. -/
noncomputable def BState.cost [Fintype ι] (l : BState ι A V L) : Nat :=
  ∑ i, (l.cur i).cost + (l.rest.map Phase.cost).sum

omit [DecidableEq A] in
theorem Prog.cost_le {n : Nat} {p : Prog A V L} (h : Prog.Bounded n p) : p.cost ≤ n := by
  classical
  rw [Prog.cost, dif_pos ⟨_, h⟩]
  exact Nat.find_min' _ h

theorem BState.cost_step [Fintype ι] {l l' : BState ι A V L} {s s' : Mem A V} (h : l.Bounded)
    (hk : BlockStep l s (.ok (l', s'))) : l'.Bounded ∧ l'.cost < l.cost := by
  classical
  cases hk with
  | thread i hk =>
    obtain ⟨h1, h2⟩ := Prog.cost_step (h.1 i) hk
    refine ⟨⟨fun j => ?_, h.2⟩, ?_⟩
    · by_cases hj : j = i
      · subst hj; simpa using h1
      · simpa [Function.update_of_ne hj] using h.1 j
    · refine Nat.add_lt_add_right ?_ _
      refine Finset.sum_lt_sum (fun j _ => ?_) ⟨i, Finset.mem_univ i, by simpa using h2⟩
      by_cases hj : j = i
      · subst hj; simpa using h2.le
      · simp [Function.update_of_ne hj]
  | @barrier cur p ps _ x hx =>
    have hb : Phase.Bounded p := h.2 p (by simp)
    have hn := Nat.find_spec hb
    refine ⟨⟨fun i => ⟨_, hn i _⟩, fun q hq => h.2 q (by simp [hq])⟩, ?_⟩
    have h1 : ∑ i, (p i (x i)).cost ≤ Fintype.card ι * Nat.find hb := by
      refine (Finset.sum_le_card_nsmul _ _ _ fun i _ => Prog.cost_le (hn i (x i))).trans ?_
      simp
    have h2 : Phase.cost p = 1 + Fintype.card ι * Nat.find hb := by
      rw [Phase.cost, dif_pos hb]
    simp only [BState.cost, List.map_cons, List.sum_cons]
    omega

/-! ## Launches of blocks -/

/-- What a block has computed is known as soon as it has returned, even while others run. -/
theorem block_returns {β : Type} [DecidableEq β]
    {phases : β → List (Phase ι A V L)} {X W : β → A → Prop} {x : β → ι → L} {s : Mem A V}
    (hWX : ∀ b a, W b a → X b a) (hD : ∀ b c a, b ≠ c → W b a → ¬ X c a)
    (hw : ∀ b, ∀ p ∈ phases b, ∀ i y, Prog.Within (X b) (W b) (p i y))
    {P Q : β → (ι → L) → Mem A V → Prop} (hps : ∀ b, PhasesOk (phases b) (P b) (Q b))
    (hP : ∀ b, P b (x b) s) {ls' : β → BState ι A V L} {s' : Mem A V}
    (hE : Exec BlockStep (fun b => .start (x b) (phases b)) s (.ok (ls', s'))) (b : β)
    (hret : Returned BlockStep (ls' b)) :
    ∃ (y : ι → L) (t : Mem A V), (∀ i, (ls' b).cur i = .ret (y i)) ∧ Q b y t ∧
      Agree (X b) s' t := by
  have hF : ∀ b, BState.Within (X b) (W b) (BState.start (x b) (phases b)) :=
    fun b => ⟨fun i => .ret _, hw b⟩
  obtain ⟨t, h3, h4⟩ := (hE.project (fun b => block_footprint (hWX b)) hD hF (fun _ => s)
    (fun _ => Agree.refl _ _)).1 _ _ rfl |>.1 b
  obtain ⟨y, hy, hQ⟩ := (block_alone (hps b) (hP b) h3).2 _ _ rfl hret
  exact ⟨y, t, hy, hQ, h4⟩

/-- A launch of blocks that touch nothing another block writes. If the chain of assertions holds
for every block alone from the memory at launch, then no schedule has undefined behaviour, every
schedule terminates, some schedule completes, and every complete schedule leaves, at what each
block touches, a memory in which the last assertion of that block holds. -/
theorem block_launch {β : Type} [DecidableEq β] [Fintype β] [Fintype ι]
    {phases : β → List (Phase ι A V L)} {X W : β → A → Prop} {x : β → ι → L} {s : Mem A V}
    (hWX : ∀ b a, W b a → X b a) (hD : ∀ b c a, b ≠ c → W b a → ¬ X c a)
    (hw : ∀ b, ∀ p ∈ phases b, ∀ i y, Prog.Within (X b) (W b) (p i y))
    (hb : ∀ b, ∀ p ∈ phases b, Phase.Bounded p)
    {P Q : β → (ι → L) → Mem A V → Prop} (hps : ∀ b, PhasesOk (phases b) (P b) (Q b))
    (hP : ∀ b, P b (x b) s) :
    let ls : β → BState ι A V L := fun b => .start (x b) (phases b)
    ¬ Exec BlockStep ls s .ub ∧ Terminates BlockStep ls s ∧
    (∃ s', Completes BlockStep ls s s') ∧
    ∀ s', Completes BlockStep ls s s' →
      (∀ b, ∃ y t, Q b y t ∧ Agree (X b) s' t ∧ ∀ a, ¬ W b a → t a = s a) ∧
      ∀ a, (∀ b, ¬ W b a) → s' a = s a := by
  intro ls
  have hF : ∀ b, BState.Within (X b) (W b) (ls b) := fun b => ⟨fun i => .ret _, hw b⟩
  have hB : ∀ b, (ls b).Bounded := fun b => ⟨fun i => ⟨0, .ret _ _⟩, hb b⟩
  have hsafe : ¬ Exec BlockStep ls s .ub := by
    intro hE
    obtain ⟨b, hb'⟩ := (hE.project (fun b => block_footprint (hWX b)) hD hF (fun _ => s)
      (fun _ => Agree.refl _ _)).2 rfl
    exact (block_alone (hps b) (hP b) hb').1 rfl
  refine ⟨hsafe, ?_, ?_, ?_⟩
  · refine terminates_of_measure (fun y => ∀ b, (y.1 b).Bounded)
      (fun y => ∑ b, (y.1 b).cost) hB ?_
    rintro ⟨ls, s⟩ ⟨ls', s'⟩ hJ ⟨i, l', hk, he⟩
    simp only at he hk hJ
    subst he
    obtain ⟨h1, h2⟩ := BState.cost_step (hJ i) hk
    refine ⟨fun j => ?_, ?_⟩
    · by_cases hj : j = i
      · subst hj; simpa using h1
      · simpa [Function.update_of_ne hj] using hJ j
    · refine Finset.sum_lt_sum (fun j _ => ?_) ⟨i, Finset.mem_univ i, by simpa using h2⟩
      by_cases hj : j = i
      · subst hj; simpa using h2.le
      · simp [Function.update_of_ne hj]
  · refine exists_complete
      (fun ls t => (∀ b, (ls b).Bounded) ∧ ¬ Exec BlockStep ls t .ub)
      (fun ls _ => ∑ b, (ls b).cost) ?_ ?_ ls s ⟨hB, hsafe⟩
    · rintro ls s i l' s' ⟨hJ, hu⟩ hk
      obtain ⟨h1, h2⟩ := BState.cost_step (hJ i) hk
      refine ⟨⟨fun j => ?_, fun hx => hu (.step i hk hx)⟩, ?_⟩
      · by_cases hj : j = i
        · subst hj; simpa using h1
        · simpa [Function.update_of_ne hj] using hJ j
      · refine Finset.sum_lt_sum (fun j _ => ?_) ⟨i, Finset.mem_univ i, by simpa using h2⟩
        by_cases hj : j = i
        · subst hj; simpa using h2.le
        · simp [Function.update_of_ne hj]
    · rintro ls s i ⟨_, hu⟩
      rcases blockStep_progress (ls i) s with ⟨r, h⟩ | ⟨h, y, hy⟩
      · cases r with
        | ok z => exact .inr ⟨z.1, z.2, h⟩
        | throws e => exact absurd h (blockStep_not_throws _ _ _)
        | ub => exact absurd (.fault i h) hu
      · exact .inl (block_returned h hy)
  · rintro s' ⟨ls', hE, hret⟩
    obtain ⟨h1, h2⟩ := (hE.project (fun b => block_footprint (hWX b)) hD hF (fun _ => s)
      (fun _ => Agree.refl _ _)).1 _ _ rfl
    refine ⟨fun b => ?_, h2⟩
    obtain ⟨t, h3, h4⟩ := h1 b
    obtain ⟨y, -, hy⟩ := (block_alone (hps b) (hP b) h3).2 _ _ rfl (hret b)
    refine ⟨y, t, hy, h4, fun a ha => ?_⟩
    have : ∀ (l : BState ι A V L) (s : Mem A V) (o : Outcome (BState ι A V L × Mem A V)),
        Alone BlockStep l s o → BState.Within (X b) (W b) l →
        ∀ l' t, o = .ok (l', t) → t a = s a := by
      intro l s o h
      induction h with
      | stop l s => intro _ l' t e; cases e; rfl
      | step hk _ ih =>
        intro hl l' t e
        rw [ih ((block_footprint (hWX b)).pres _ _ _ _ hl hk) l' t e,
          (block_footprint (hWX b)).frame _ _ _ _ hl hk a ha]
      | fault hk => intro _ l' t e; cases e
    exact this _ _ _ h3 (hF b) _ _ rfl

end Bliss.Gpu
