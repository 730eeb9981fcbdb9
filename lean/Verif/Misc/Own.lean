import Verif.Nd.Shapes

/-!
# Who owns the memory of an array

`blandDLTensor` (`bland/bland/bland_tensor_internals.cpp`) holds a data pointer and, beside it, a
`shared_ptr` to the same memory. Arrays taken from another framework have the pointer only. This
module follows both through every history of creating, copying, slicing, assigning, destroying,
taking over and handing out arrays.
-/

namespace Bliss.Own

open Nd

/-- Where `DLTensor::data` points: memory of the library, memory of another framework, nowhere. -/
inductive Ptr
  | own (b : Nat)
  | ext (f : Nat)
  | null
  deriving DecidableEq, Repr

/-- `blandDLTensor` (`bland_tensor_internals.hpp:13-58`): data pointer, `_data_ownership` (the
allocation it shares, if any), where the `shape` and `strides` pointers of the `DLTensor` point
(`none`: to the vectors of the object itself, `some f`: to memory of another framework), and the
sizes, strides and offsets. -/
structure Tensor where
  data : Ptr
  owner : Option Nat
  metadata : Option Nat
  dims : List Dim
  deriving DecidableEq, Repr

/-- What holds a tensor: a variable of the program, or the context of an exported
`DLManagedTensor`. -/
inductive Key
  | var (x : Nat)
  | exported (m : Nat)
  deriving DecidableEq, Repr

/-- State of the memory: use count of the control block of every allocation and whether the
allocation has been freed, the number of allocations so far, the tensors that exist, and which
memory of other frameworks is gone. -/
structure State where
  count : Nat → Nat
  freed : Nat → Bool
  next : Nat
  held : List (Key × Tensor)
  gone : Nat → Bool

/-- The program before its first array. -/
def State.init : State := ⟨fun _ => 0, fun _ => false, 0, [], fun _ => false⟩

/-- The tensor held under a key. -/
def get (k : Key) : List (Key × Tensor) → Option Tensor
  | [] => none
  | (k', t) :: l => if k' = k then some t else get k l

/-- The tensors without the one held under a key. -/
def remove (k : Key) : List (Key × Tensor) → List (Key × Tensor)
  | [] => []
  | (k', t) :: l => if k' = k then l else (k', t) :: remove k l

/-- The tensors with another one under a key in use. -/
def put (k : Key) (t : Tensor) : List (Key × Tensor) → List (Key × Tensor)
  | [] => []
  | (k', t') :: l => if k' = k then (k', t) :: l else (k', t') :: put k t l

/-- Copying a `shared_ptr`: one more user. -/
def State.retain (s : State) : Option Nat → State
  | none => s
  | some b => { s with count := fun c => if c = b then s.count b + 1 else s.count c }

/-- Destroying a `shared_ptr`: one user less, and the last one frees the allocation. Giving back
what nobody holds would be a double free. -/
def State.release (s : State) : Option Nat → Outcome State
  | none => .ok s
  | some b =>
    if s.count b = 0 then .ub
    else .ok { s with
      count := fun c => if c = b then s.count b - 1 else s.count c
      freed := fun c => if c = b then decide (s.count b = 1) else s.freed c }

/-- `_data_ownership.get()`. -/
def ownerPtr : Option Nat → Ptr
  | some b => .own b
  | none => .null

/-- One step of a program that uses arrays.
* `create x dims`: `ndarray x(shape, …)` (`bland_tensor_internals.cpp:49-141`);
* `copy x y`: `ndarray x(y)` (`:144-168`), also every argument passed by value and every value
  returned;
* `view x y f`: a copy whose sizes, strides and offsets are changed afterwards, as `slice` does
  (`ops.cpp:164-195`);
* `assign x y`: `x = y` (`:171-193`);
* `drop x`: `x` goes out of scope;
* `takeOver x f dims`: `ndarray x(DLManagedTensor)` (`:25-47`);
* `giveBack f`: the other framework frees its memory;
* `export x m`: `x.get_managed_tensor()` (`:196-230`);
* `release m`: the consumer calls the deleter (`:223-228`);
* `read k`: an element is read through the tensor;
* `query k`: its shape or strides are read. -/
inductive Op
  | create (x : Nat) (dims : List Dim)
  | copy (x y : Nat)
  | view (x y : Nat) (f : List Dim → List Dim)
  | assign (x y : Nat)
  | drop (x : Nat)
  | takeOver (x f : Nat) (dims : List Dim)
  | giveBack (f : Nat)
  | export (x m : Nat)
  | release (m : Nat)
  | read (k : Key)
  | query (k : Key)

/-- The copy constructor (`bland_tensor_internals.cpp:144-168`): the data pointer of the other
tensor, one more user of its memory, and vectors of its own for sizes and strides. -/
def copyInto (s : State) (k : Key) (t : Tensor) : State :=
  { s.retain t.owner with
    held := (k, { data := t.data, owner := t.owner, metadata := none, dims := t.dims }) :: s.held }

/-- Destroying the tensor under a key. -/
def destroy (s : State) (k : Key) : Outcome State :=
  match get k s.held with
  | none => .ok s
  | some t => ({ s with held := remove k s.held } : State).release t.owner

/-- Whether memory behind a pointer may be accessed. -/
def State.valid (s : State) : Ptr → Bool
  | .own b => decide (b < s.next) && !s.freed b
  | .ext f => !s.gone f
  | .null => false

/-- Whether the sizes of a tensor may be read. -/
def State.validMeta (s : State) : Option Nat → Bool
  | none => true
  | some f => !s.gone f

/-- One step. A step no program can contain (a name that is in use, or not in use) changes
nothing. -/
def step (s : State) : Op → Outcome State
  | .create x dims =>
    match get (.var x) s.held with
    | some _ => .ok s
    | none =>
      .ok ⟨fun c => if c = s.next then 1 else s.count c, s.freed, s.next + 1,
        (.var x, ⟨.own s.next, some s.next, none, dims⟩) :: s.held, s.gone⟩
  | .copy x y =>
    match get (.var x) s.held, get (.var y) s.held with
    | none, some t => .ok (copyInto s (.var x) t)
    | _, _ => .ok s
  | .view x y f =>
    match get (.var x) s.held, get (.var y) s.held with
    | none, some t => .ok (copyInto s (.var x) { t with dims := f t.dims })
    | _, _ => .ok s
  | .assign x y =>
    match get (.var x) s.held, get (.var y) s.held with
    | some t, some u =>
      if x = y then .ok s
      else do
        -- `operator=` of the `shared_ptr` takes the new memory before it gives up the old
        let s' ← (s.retain u.owner).release t.owner
        pure { s' with
          held := put (.var x) ⟨ownerPtr u.owner, u.owner, none, u.dims⟩ s'.held }
    | _, _ => .ok s
  | .drop x => destroy s (.var x)
  | .takeOver x f dims =>
    match get (.var x) s.held with
    | some _ => .ok s
    | none => .ok { s with held := (.var x, ⟨.ext f, none, some f, dims⟩) :: s.held }
  | .giveBack f => .ok { s with gone := fun g => if g = f then true else s.gone g }
  | .export x m =>
    match get (.exported m) s.held, get (.var x) s.held with
    | none, some t => .ok (copyInto s (.exported m) t)
    | _, _ => .ok s
  | .release m => destroy s (.exported m)
  | .read k =>
    match get k s.held with
    | none => .ok s
    | some t => if s.validMeta t.metadata && s.valid t.data then .ok s else .ub
  | .query k =>
    match get k s.held with
    | none => .ok s
    | some t => if s.validMeta t.metadata then .ok s else .ub

/-- A history from a state. -/
def runFrom (s : State) : List Op → Outcome State
  | [] => .ok s
  | o :: os => do
    let s' ← step s o
    runFrom s' os

/-- A history of a program. -/
def run (os : List Op) : Outcome State := runFrom .init os

/-! ## Specification -/

/-- The memory of an allocation is still there. -/
def State.alive (s : State) (b : Nat) : Prop := b < s.next ∧ s.freed b = false

/-- Some variable or export still refers to the allocation. -/
def State.inUse (s : State) (b : Nat) : Prop := ∃ e ∈ s.held, e.2.data = .own b

/-- The history takes no array from another framework. -/
def NoTakeOver (os : List Op) : Prop := ∀ o ∈ os, ∀ x f d, o ≠ .takeOver x f d

/-- The history never assigns to an array. -/
def NoAssign (os : List Op) : Prop := ∀ o ∈ os, ∀ x y, o ≠ .assign x y

/-- Other frameworks keep their memory. -/
def NoGiveBack (os : List Op) : Prop := ∀ o ∈ os, ∀ f, o ≠ .giveBack f

/-! ## The invariant -/

/-- How many tensors share an allocation. -/
def owners (b : Nat) (l : List (Key × Tensor)) : Nat := l.countP (fun e => e.2.owner = some b)

/-- A tensor that shares an allocation points into it and has its own sizes; one that does not
points elsewhere. -/
def Tensor.Coherent (t : Tensor) : Prop :=
  (∀ b, t.owner = some b → t.data = .own b ∧ t.metadata = none) ∧
    (t.owner = none → ∀ b, t.data ≠ .own b)

/-- Use counts are right, and exactly the allocations without users are freed. -/
structure Inv (s : State) : Prop where
  counts : ∀ b, s.count b = owners b s.held
  fresh : ∀ b, s.next ≤ b → s.count b = 0
  unmade : ∀ b, s.next ≤ b → s.freed b = false
  freed_iff : ∀ b, b < s.next → (s.freed b = true ↔ owners b s.held = 0)
  coherent : ∀ e ∈ s.held, e.2.Coherent

theorem mem_of_get {k : Key} {t : Tensor} : ∀ {l : List (Key × Tensor)}, get k l = some t → (k, t) ∈ l
  | [], h => by cases h
  | (k', t') :: l, h => by
    unfold get at h
    by_cases hk : k' = k
    · rw [if_pos hk] at h; cases h; rw [hk]; exact List.mem_cons_self
    · rw [if_neg hk] at h; exact List.mem_cons_of_mem _ (mem_of_get h)

theorem owners_cons (b : Nat) (e : Key × Tensor) (l : List (Key × Tensor)) :
    owners b (e :: l) = owners b l + if e.2.owner = some b then 1 else 0 := by
  unfold owners; rw [List.countP_cons]; simp

theorem owners_remove {k : Key} {t : Tensor} (b : Nat) : ∀ {l : List (Key × Tensor)},
    get k l = some t → owners b l = owners b (remove k l) + if t.owner = some b then 1 else 0
  | [], h => by cases h
  | (k', t') :: l, h => by
    unfold get at h; unfold remove
    by_cases hk : k' = k
    · rw [if_pos hk] at h; cases h; rw [if_pos hk, owners_cons]
    · rw [if_neg hk] at h; rw [if_neg hk, owners_cons, owners_cons, owners_remove b h]; omega

theorem owners_put {k : Key} {t u : Tensor} (b : Nat) : ∀ {l : List (Key × Tensor)},
    get k l = some t → owners b (put k u l) + (if t.owner = some b then 1 else 0) =
      owners b l + if u.owner = some b then 1 else 0
  | [], h => by cases h
  | (k', t') :: l, h => by
    unfold get at h; unfold put
    by_cases hk : k' = k
    · rw [if_pos hk] at h; cases h; rw [if_pos hk, owners_cons, owners_cons]; dsimp only; omega
    · rw [if_neg hk] at h; rw [if_neg hk, owners_cons, owners_cons]
      have := owners_put (u := u) b h; dsimp only; omega

theorem mem_remove {k : Key} {e : Key × Tensor} : ∀ {l : List (Key × Tensor)}, e ∈ remove k l → e ∈ l
  | [], h => h
  | (k', t') :: l, h => by
    unfold remove at h
    by_cases hk : k' = k
    · rw [if_pos hk] at h; exact List.mem_cons_of_mem _ h
    · rw [if_neg hk] at h
      rcases List.mem_cons.1 h with rfl | h
      · exact List.mem_cons_self
      · exact List.mem_cons_of_mem _ (mem_remove h)

theorem mem_put {k : Key} {u : Tensor} {e : Key × Tensor} : ∀ {l : List (Key × Tensor)},
    e ∈ put k u l → e.2 = u ∨ e ∈ l
  | [], h => Or.inr h
  | (k', t') :: l, h => by
    unfold put at h
    by_cases hk : k' = k
    · rw [if_pos hk] at h
      rcases List.mem_cons.1 h with rfl | h
      · exact Or.inl rfl
      · exact Or.inr (List.mem_cons_of_mem _ h)
    · rw [if_neg hk] at h
      rcases List.mem_cons.1 h with rfl | h
      · exact Or.inr List.mem_cons_self
      · rcases mem_put h with h | h
        · exact Or.inl h
        · exact Or.inr (List.mem_cons_of_mem _ h)

theorem owners_pos {b : Nat} {l : List (Key × Tensor)} {e : Key × Tensor} (he : e ∈ l)
    (ho : e.2.owner = some b) : 0 < owners b l :=
  List.countP_pos_iff.2 ⟨e, he, by simpa using ho⟩

theorem get_put {k k' : Key} {t u : Tensor} : ∀ {l : List (Key × Tensor)}, get k l = some t →
    get k' (put k u l) = if k' = k then some u else get k' l
  | [], h => by cases h
  | (k₁, t₁) :: l, h => by
    unfold get at h; unfold put
    by_cases hk : k₁ = k
    · rw [if_pos hk] at h; rw [if_pos hk]; subst hk
      unfold get
      by_cases h' : k' = k₁
      · rw [if_pos h', if_pos h'.symm]
      · rw [if_neg (Ne.symm h'), if_neg h', if_neg (Ne.symm h')]
    · rw [if_neg hk] at h; rw [if_neg hk]
      conv_lhs => unfold get
      conv_rhs => rw [get]
      by_cases h' : k₁ = k'
      · rw [if_pos h', if_pos h', if_neg (by rintro rfl; exact hk h')]
      · rw [if_neg h', if_neg h', get_put h]

theorem init_inv : Inv .init :=
  ⟨fun _ => rfl, fun _ _ => rfl, fun _ _ => rfl, fun b hb => absurd hb (Nat.not_lt_zero _),
    fun e he => absurd he List.not_mem_nil⟩

/-- Only allocations that were made are shared. -/
theorem Inv.owner_lt {s : State} (hs : Inv s) {e : Key × Tensor} (he : e ∈ s.held) {b : Nat}
    (ho : e.2.owner = some b) : b < s.next := by
  by_contra hb
  have h1 := hs.fresh b (by omega)
  rw [hs.counts] at h1
  have := owners_pos he ho
  omega

theorem copy_inv {s : State} (hs : Inv s) {k : Key} {t : Tensor} (ht : ∃ e ∈ s.held, e.2.owner = t.owner)
    (hc : t.Coherent) : Inv (copyInto s k t) := by
  obtain ⟨e, he, hee⟩ := ht
  have hlt : ∀ b, t.owner = some b → b < s.next := fun b hb => hs.owner_lt he (hee.trans hb)
  have hc' : ∀ e' ∈ (copyInto s k t).held, e'.2.Coherent := by
    intro e' he'
    rcases List.mem_cons.1 he' with rfl | he'
    · exact ⟨fun b hb => ⟨(hc.1 b hb).1, rfl⟩, hc.2⟩
    · exact hs.coherent e' he'
  have ho : ∀ b, owners b (copyInto s k t).held = owners b s.held + if t.owner = some b then 1 else 0 :=
    fun b => owners_cons b _ _
  cases hto : t.owner with
  | none =>
    have h0 : ∀ b, owners b (copyInto s k t).held = owners b s.held := by
      intro b; rw [ho, hto]; simp
    have hS : copyInto s k t = { s with held := (copyInto s k t).held } := by
      unfold copyInto; rw [hto]; rfl
    refine ⟨fun b => ?_, fun b hb => ?_, fun b hb => ?_, fun b hb => ?_, hc'⟩
    · rw [h0, hS]; exact hs.counts b
    · rw [hS] at hb ⊢; exact hs.fresh b hb
    · rw [hS] at hb ⊢; exact hs.unmade b hb
    · rw [h0]; rw [hS] at hb ⊢; exact hs.freed_iff b hb
  | some c =>
    have hcnt : ∀ b, (copyInto s k t).count b = s.count b + if t.owner = some b then 1 else 0 := by
      intro b
      unfold copyInto; rw [hto]
      simp only [State.retain]
      by_cases hb : b = c
      · subst hb; simp
      · rw [if_neg hb, if_neg (by simpa using Ne.symm hb)]; rfl
    have hnext : (copyInto s k t).next = s.next := by unfold copyInto; rw [hto]; rfl
    have hfreed : (copyInto s k t).freed = s.freed := by unfold copyInto; rw [hto]; rfl
    refine ⟨fun b => ?_, fun b hb => ?_, fun b hb => ?_, fun b hb => ?_, hc'⟩
    · rw [hcnt, ho, hs.counts]
    · rw [hnext] at hb
      rw [hcnt, hs.fresh b hb, if_neg]
      intro h; have := hlt b h; omega
    · rw [hnext] at hb; rw [hfreed]; exact hs.unmade b hb
    · rw [hnext] at hb; rw [hfreed, ho, hs.freed_iff b hb]
      by_cases hb' : t.owner = some b
      · have := owners_pos he (hee.trans hb'); rw [if_pos hb']; omega
      · rw [if_neg hb']; simp

/-- Giving up a user of an allocation, when the tensors left are one user fewer. -/
theorem release_inv {s : State} {t : Tensor} {l : List (Key × Tensor)}
    (hcnt : ∀ b, s.count b = owners b l + if t.owner = some b then 1 else 0)
    (hfresh : ∀ b, s.next ≤ b → s.count b = 0) (hun : ∀ b, s.next ≤ b → s.freed b = false)
    (hfreed : ∀ b, b < s.next → (s.freed b = true ↔ s.count b = 0))
    (hc : ∀ e ∈ l, e.2.Coherent) (S : State) (hS : S = { s with held := l }) :
    ∃ s', S.release t.owner = .ok s' ∧ Inv s' ∧ s'.held = l ∧ s'.next = s.next ∧ s'.gone = s.gone := by
  subst hS
  cases hto : t.owner with
  | none =>
    refine ⟨_, rfl, ⟨fun b => ?_, hfresh, hun, fun b hb => ?_, hc⟩, rfl, rfl, rfl⟩
    · have := hcnt b; rw [hto] at this; simpa using this
    · have := hcnt b; rw [hto] at this
      rw [show (owners b _ = 0 ↔ s.count b = 0) by simp at this; rw [this]]
      exact hfreed b hb
  | some c =>
    have hcc : s.count c = owners c l + 1 := by have := hcnt c; rw [hto] at this; simpa using this
    have hne : ∀ b, b ≠ c → s.count b = owners b l := by
      intro b hb; have := hcnt b; rw [hto, if_neg (by simpa using Ne.symm hb)] at this; simpa using this
    have hclt : c < s.next := by
      by_contra h; have := hfresh c (by omega); omega
    refine ⟨⟨fun b => if b = c then s.count c - 1 else s.count b,
      fun b => if b = c then decide (s.count c = 1) else s.freed b, s.next, l, s.gone⟩,
      ?_, ⟨fun b => ?_, fun b hb => ?_, fun b hb => ?_, fun b hb => ?_, hc⟩, rfl, rfl, rfl⟩
    · unfold State.release; dsimp only; rw [if_neg (by omega)]
    · dsimp only
      by_cases hb : b = c
      · subst hb; rw [if_pos rfl]; omega
      · rw [if_neg hb]; exact hne b hb
    · dsimp only at hb ⊢
      rw [if_neg (by omega)]; exact hfresh b hb
    · dsimp only at hb ⊢
      rw [if_neg (by omega)]; exact hun b hb
    · dsimp only at hb ⊢
      by_cases hbc : b = c
      · subst hbc; rw [if_pos rfl]; simp; omega
      · rw [if_neg hbc, hfreed b hb, hne b hbc]

theorem destroy_inv {s : State} (hs : Inv s) (k : Key) :
    ∃ s', destroy s k = .ok s' ∧ Inv s' ∧ s'.next = s.next ∧ s'.gone = s.gone ∧
      (∀ e ∈ s'.held, e ∈ s.held) := by
  unfold destroy
  cases h : get k s.held with
  | none => exact ⟨s, rfl, hs, rfl, rfl, fun _ h => h⟩
  | some t =>
    obtain ⟨s', h1, h2, h3, h4, h5⟩ := release_inv (s := s) (t := t) (l := remove k s.held)
      (fun b => by rw [hs.counts, owners_remove b h]) hs.fresh hs.unmade
      (fun b hb => by rw [hs.counts]; exact hs.freed_iff b hb)
      (fun e he => hs.coherent e (mem_remove he)) _ rfl
    exact ⟨s', h1, h2, h4, h5, by rw [h3]; exact fun e he => mem_remove he⟩

theorem assign_inv {s : State} (hs : Inv s) {x y : Nat} {t u : Tensor}
    (ht : get (.var x) s.held = some t) (hu : get (.var y) s.held = some u) :
    ∃ s', (s.retain u.owner).release t.owner = .ok s' ∧ s'.held = s.held ∧ s'.next = s.next ∧
      s'.gone = s.gone ∧
      Inv { s' with held := put (.var x) ⟨ownerPtr u.owner, u.owner, none, u.dims⟩ s'.held } := by
  set w : Tensor := ⟨ownerPtr u.owner, u.owner, none, u.dims⟩ with hw
  have hmem := mem_of_get hu
  have hcw : w.Coherent := by
    constructor
    · intro b hb; rw [hw] at hb ⊢; dsimp only at hb ⊢; rw [hb]; exact ⟨rfl, rfl⟩
    · intro h b; rw [hw] at h ⊢; dsimp only at h ⊢; rw [h]; simp [ownerPtr]
  have hrc : ∀ b, (s.retain u.owner).count b = s.count b + if u.owner = some b then 1 else 0 := by
    intro b
    cases huo : u.owner with
    | none => simp [State.retain]
    | some c =>
      simp only [State.retain]
      by_cases hb : b = c
      · subst hb; simp
      · rw [if_neg hb, if_neg (by simpa using Ne.symm hb)]; rfl
  have hrest : (s.retain u.owner).next = s.next ∧ (s.retain u.owner).freed = s.freed ∧
      (s.retain u.owner).held = s.held ∧ (s.retain u.owner).gone = s.gone := by
    cases huo : u.owner <;> exact ⟨rfl, rfl, rfl, rfl⟩
  obtain ⟨s', h1, h2, h3, h4, h5⟩ := release_inv (s := s.retain u.owner) (t := t)
    (l := put (.var x) w s.held)
    (fun b => by rw [hrc, hs.counts]; exact (owners_put (u := w) b ht).symm)
    (fun b hb => by
      rw [hrest.1] at hb
      rw [hrc, hs.fresh b hb, if_neg]
      intro h; have := hs.owner_lt hmem h; omega)
    (fun b hb => by rw [hrest.1] at hb; rw [hrest.2.1]; exact hs.unmade b hb)
    (fun b hb => by
      rw [hrest.1] at hb
      rw [hrest.2.1, hrc, hs.freed_iff b hb, hs.counts]
      by_cases hb' : u.owner = some b
      · have := owners_pos hmem hb'; rw [if_pos hb']; omega
      · rw [if_neg hb']; simp)
    (fun e he => by
      rcases mem_put he with h | h
      · rw [h]; exact hcw
      · exact hs.coherent e h)
    { s.retain u.owner with held := put (.var x) w s.held } rfl
  -- releasing does not look at the tensors
  have key : (s.retain u.owner).release t.owner = .ok { s' with held := s.held } := by
    cases hto : t.owner with
    | none =>
      rw [hto] at h1
      cases h1
      cases huo : u.owner <;> rfl
    | some c =>
      rw [hto] at h1
      unfold State.release at h1 ⊢
      dsimp only at h1 ⊢
      by_cases h0 : (s.retain u.owner).count c = 0
      · rw [if_pos h0] at h1; cases h1
      · rw [if_neg h0] at h1 ⊢
        cases h1
        rw [← hrest.2.2.1]
  refine ⟨_, key, rfl, h4.trans hrest.1, h5.trans hrest.2.2.2, ?_⟩
  have : ({ s' with held := put (.var x) w s.held } : State) = s' := by rw [← h3]
  dsimp only
  rw [this]; exact h2

/-- Every step keeps the invariant, and only reading can fail. -/
theorem step_inv {s : State} (hs : Inv s) (o : Op) :
    (∃ s', step s o = .ok s' ∧ Inv s') ∨
      (step s o = .ub ∧ ∃ k t, (o = .read k ∨ o = .query k) ∧ get k s.held = some t) := by
  cases o with
  | create x dims =>
    refine Or.inl ?_
    unfold step; dsimp only
    cases hx : get (.var x) s.held with
    | some t => exact ⟨s, rfl, hs⟩
    | none =>
      have h0 : owners s.next s.held = 0 := by rw [← hs.counts]; exact hs.fresh _ (le_refl _)
      refine ⟨_, rfl, fun b => ?_, fun b hb => ?_, fun b hb => ?_, fun b hb => ?_, fun e he => ?_⟩
      · dsimp only; rw [owners_cons]; dsimp only
        by_cases hb : b = s.next
        · subst hb; rw [if_pos rfl, if_pos rfl, h0]
        · rw [if_neg hb, if_neg (by simpa using Ne.symm hb), hs.counts]; rfl
      · dsimp only at hb ⊢; rw [if_neg (by omega)]; exact hs.fresh b (by omega)
      · dsimp only at hb ⊢; exact hs.unmade b (by omega)
      · dsimp only at hb ⊢; rw [owners_cons]; dsimp only
        by_cases hb' : b = s.next
        · subst hb'
          rw [if_pos rfl, h0, hs.unmade _ (le_refl _)]; simp
        · rw [if_neg (by simpa using Ne.symm hb')]; exact hs.freed_iff b (by omega)
      · rcases List.mem_cons.1 he with rfl | he
        · exact ⟨fun b hb => by cases hb; exact ⟨rfl, rfl⟩, fun h => by cases h⟩
        · exact hs.coherent e he
  | copy x y =>
    refine Or.inl ?_
    unfold step; dsimp only
    cases hx : get (.var x) s.held with
    | some t => exact ⟨s, rfl, hs⟩
    | none =>
      cases hy : get (.var y) s.held with
      | none => exact ⟨s, rfl, hs⟩
      | some t =>
        exact ⟨_, rfl, copy_inv hs ⟨_, mem_of_get hy, rfl⟩ (hs.coherent _ (mem_of_get hy))⟩
  | view x y f =>
    refine Or.inl ?_
    unfold step; dsimp only
    cases hx : get (.var x) s.held with
    | some t => exact ⟨s, rfl, hs⟩
    | none =>
      cases hy : get (.var y) s.held with
      | none => exact ⟨s, rfl, hs⟩
      | some t =>
        exact ⟨_, rfl, copy_inv hs ⟨_, mem_of_get hy, rfl⟩ (hs.coherent _ (mem_of_get hy))⟩
  | assign x y =>
    refine Or.inl ?_
    unfold step; dsimp only
    cases hx : get (.var x) s.held with
    | none => exact ⟨s, rfl, hs⟩
    | some t =>
      cases hy : get (.var y) s.held with
      | none => exact ⟨s, rfl, hs⟩
      | some u =>
        dsimp only
        by_cases hxy : x = y
        · rw [if_pos hxy]; exact ⟨s, rfl, hs⟩
        · rw [if_neg hxy]
          obtain ⟨s', h1, _, _, _, h2⟩ := assign_inv hs hx hy
          rw [h1]; exact ⟨_, rfl, h2⟩
  | drop x =>
    obtain ⟨s', h1, h2, _⟩ := destroy_inv hs (.var x)
    exact Or.inl ⟨s', h1, h2⟩
  | takeOver x f dims =>
    refine Or.inl ?_
    unfold step; dsimp only
    cases hx : get (.var x) s.held with
    | some t => exact ⟨s, rfl, hs⟩
    | none =>
      have ho : ∀ b, owners b ((Key.var x, (⟨.ext f, none, some f, dims⟩ : Tensor)) :: s.held) =
          owners b s.held := fun b => by rw [owners_cons]; simp
      refine ⟨_, rfl, fun b => ?_, hs.fresh, hs.unmade, fun b hb => ?_, fun e he => ?_⟩
      · dsimp only; rw [ho]; exact hs.counts b
      · dsimp only; rw [ho]; exact hs.freed_iff b hb
      · rcases List.mem_cons.1 he with rfl | he
        · exact ⟨fun b hb => (by cases hb), fun _ b h => (by cases h)⟩
        · exact hs.coherent e he
  | giveBack f => exact Or.inl ⟨_, rfl, hs.counts, hs.fresh, hs.unmade, hs.freed_iff, hs.coherent⟩
  | «export» x m =>
    refine Or.inl ?_
    unfold step; dsimp only
    cases hx : get (.exported m) s.held with
    | some t => exact ⟨s, rfl, hs⟩
    | none =>
      cases hy : get (.var x) s.held with
      | none => exact ⟨s, rfl, hs⟩
      | some t =>
        exact ⟨_, rfl, copy_inv hs ⟨_, mem_of_get hy, rfl⟩ (hs.coherent _ (mem_of_get hy))⟩
  | release m =>
    obtain ⟨s', h1, h2, _⟩ := destroy_inv hs (.exported m)
    exact Or.inl ⟨s', h1, h2⟩
  | read k =>
    unfold step; dsimp only
    cases hx : get k s.held with
    | none => exact Or.inl ⟨s, rfl, hs⟩
    | some t =>
      dsimp only
      split
      · exact Or.inl ⟨s, rfl, hs⟩
      · exact Or.inr ⟨rfl, k, t, Or.inl rfl, hx⟩
  | query k =>
    unfold step; dsimp only
    cases hx : get k s.held with
    | none => exact Or.inl ⟨s, rfl, hs⟩
    | some t =>
      dsimp only
      split
      · exact Or.inl ⟨s, rfl, hs⟩
      · exact Or.inr ⟨rfl, k, t, Or.inr rfl, hx⟩

theorem runFrom_inv {s s' : State} (hs : Inv s) : ∀ {os : List Op}, runFrom s os = .ok s' → Inv s'
  | [], h => by cases h; exact hs
  | o :: os, h => by
    unfold runFrom at h
    rcases step_inv hs o with ⟨s1, h1, h2⟩ | ⟨h1, _⟩
    · rw [h1] at h; exact runFrom_inv h2 h
    · rw [h1] at h; cases h

/-- Tensors that are neither borrowed nor empty can be read. -/
theorem owned_valid {s : State} (hs : Inv s) {k : Key} {t : Tensor} (h : get k s.held = some t)
    {b : Nat} (ho : t.owner = some b) : s.validMeta t.metadata = true ∧ s.valid t.data = true := by
  have hm := mem_of_get h
  obtain ⟨h1, h2⟩ := (hs.coherent _ hm).1 b ho
  have hb := hs.owner_lt hm ho
  dsimp only at h1 h2
  rw [h1, h2]
  refine ⟨rfl, ?_⟩
  have : s.freed b ≠ true := by
    rw [Ne, hs.freed_iff b hb]
    have := owners_pos hm ho; omega
  simp [State.valid, hb, this]

theorem runFrom_append (s : State) : ∀ (os ps : List Op),
    runFrom s (os ++ ps) = (do let s' ← runFrom s os; runFrom s' ps)
  | [], ps => rfl
  | o :: os, ps => by
    simp only [List.cons_append, runFrom]
    cases h : step s o with
    | ok s1 => exact runFrom_append s1 os ps
    | throws e => rfl
    | ub => rfl

/-- A property of all tensors that copying, creating, taking over and assigning establish is kept. -/
theorem step_held {s s' : State} (hs : Inv s) {P : Tensor → Prop} (h0 : ∀ e ∈ s.held, P e.2) {o : Op}
    (hcopy : ∀ t d, P t → P ⟨t.data, t.owner, none, d⟩)
    (hcreate : ∀ x d, o = .create x d → P ⟨.own s.next, some s.next, none, d⟩)
    (htake : ∀ x f d, o = .takeOver x f d → P ⟨.ext f, none, some f, d⟩)
    (hassign : ∀ x y, o = .assign x y → ∀ t, P t → P ⟨ownerPtr t.owner, t.owner, none, t.dims⟩)
    (h : step s o = .ok s') : ∀ e ∈ s'.held, P e.2 := by
  cases o with
  | create x dims =>
    unfold step at h; dsimp only at h
    cases hx : get (.var x) s.held with
    | some t => rw [hx] at h; cases h; exact h0
    | none =>
      rw [hx] at h; cases h
      intro e he
      rcases List.mem_cons.1 he with rfl | he
      · exact hcreate x dims rfl
      · exact h0 e he
  | copy x y =>
    unfold step at h; dsimp only at h
    cases hx : get (.var x) s.held with
    | some t => rw [hx] at h; cases h; exact h0
    | none =>
      cases hy : get (.var y) s.held with
      | none => rw [hx, hy] at h; cases h; exact h0
      | some t =>
        rw [hx, hy] at h; cases h
        intro e he
        rcases List.mem_cons.1 he with rfl | he
        · exact hcopy t _ (h0 _ (mem_of_get hy))
        · exact h0 e he
  | view x y f =>
    unfold step at h; dsimp only at h
    cases hx : get (.var x) s.held with
    | some t => rw [hx] at h; cases h; exact h0
    | none =>
      cases hy : get (.var y) s.held with
      | none => rw [hx, hy] at h; cases h; exact h0
      | some t =>
        rw [hx, hy] at h; cases h
        intro e he
        rcases List.mem_cons.1 he with rfl | he
        · exact hcopy t _ (h0 _ (mem_of_get hy))
        · exact h0 e he
  | assign x y =>
    unfold step at h; dsimp only at h
    cases hx : get (.var x) s.held with
    | none => rw [hx] at h; cases h; exact h0
    | some t =>
      cases hy : get (.var y) s.held with
      | none => rw [hx, hy] at h; cases h; exact h0
      | some u =>
        rw [hx, hy] at h; dsimp only at h
        by_cases hxy : x = y
        · rw [if_pos hxy] at h; cases h; exact h0
        · rw [if_neg hxy] at h
          obtain ⟨s1, h1, h2, _⟩ := assign_inv hs hx hy
          rw [h1] at h; cases h
          intro e he
          rcases mem_put he with he | he
          · rw [he]; exact hassign x y rfl u (h0 _ (mem_of_get hy))
          · rw [h2] at he; exact h0 e he
  | drop x =>
    obtain ⟨s1, h1, _, _, _, h2⟩ := destroy_inv hs (.var x)
    have : step s (.drop x) = .ok s1 := h1
    rw [this] at h; cases h
    exact fun e he => h0 e (h2 e he)
  | takeOver x f dims =>
    unfold step at h; dsimp only at h
    cases hx : get (.var x) s.held with
    | some t => rw [hx] at h; cases h; exact h0
    | none =>
      rw [hx] at h; cases h
      intro e he
      rcases List.mem_cons.1 he with rfl | he
      · exact htake x f dims rfl
      · exact h0 e he
  | giveBack f => cases h; exact h0
  | «export» x m =>
    unfold step at h; dsimp only at h
    cases hx : get (.exported m) s.held with
    | some t => rw [hx] at h; cases h; exact h0
    | none =>
      cases hy : get (.var x) s.held with
      | none => rw [hx, hy] at h; cases h; exact h0
      | some t =>
        rw [hx, hy] at h; cases h
        intro e he
        rcases List.mem_cons.1 he with rfl | he
        · exact hcopy t _ (h0 _ (mem_of_get hy))
        · exact h0 e he
  | release m =>
    obtain ⟨s1, h1, _, _, _, h2⟩ := destroy_inv hs (.exported m)
    have : step s (.release m) = .ok s1 := h1
    rw [this] at h; cases h
    exact fun e he => h0 e (h2 e he)
  | read k =>
    unfold step at h; dsimp only at h
    cases hx : get k s.held with
    | none => rw [hx] at h; cases h; exact h0
    | some t =>
      rw [hx] at h; dsimp only at h
      split at h
      · cases h; exact h0
      · cases h
  | query k =>
    unfold step at h; dsimp only at h
    cases hx : get k s.held with
    | none => rw [hx] at h; cases h; exact h0
    | some t =>
      rw [hx] at h; dsimp only at h
      split at h
      · cases h; exact h0
      · cases h

/-- Only giving memory back changes which memory of other frameworks is gone. -/
theorem step_gone {s s' : State} (hs : Inv s) {o : Op} (ho : ∀ f, o ≠ .giveBack f)
    (h : step s o = .ok s') : s'.gone = s.gone := by
  cases o with
  | create x dims =>
    unfold step at h; dsimp only at h
    cases hx : get (.var x) s.held with
    | some t => rw [hx] at h; cases h; rfl
    | none => rw [hx] at h; cases h; rfl
  | copy x y =>
    unfold step at h; dsimp only at h
    cases hx : get (.var x) s.held with
    | some t => rw [hx] at h; cases h; rfl
    | none =>
      cases hy : get (.var y) s.held with
      | none => rw [hx, hy] at h; cases h; rfl
      | some t => rw [hx, hy] at h; cases h; unfold copyInto; cases t.owner <;> rfl
  | view x y f =>
    unfold step at h; dsimp only at h
    cases hx : get (.var x) s.held with
    | some t => rw [hx] at h; cases h; rfl
    | none =>
      cases hy : get (.var y) s.held with
      | none => rw [hx, hy] at h; cases h; rfl
      | some t => rw [hx, hy] at h; cases h; unfold copyInto; cases t.owner <;> rfl
  | assign x y =>
    unfold step at h; dsimp only at h
    cases hx : get (.var x) s.held with
    | none => rw [hx] at h; cases h; rfl
    | some t =>
      cases hy : get (.var y) s.held with
      | none => rw [hx, hy] at h; cases h; rfl
      | some u =>
        rw [hx, hy] at h; dsimp only at h
        by_cases hxy : x = y
        · rw [if_pos hxy] at h; cases h; rfl
        · rw [if_neg hxy] at h
          obtain ⟨s1, h1, _, _, h2, _⟩ := assign_inv hs hx hy
          rw [h1] at h; cases h; exact h2
  | drop x =>
    obtain ⟨s1, h1, _, _, h2, _⟩ := destroy_inv hs (.var x)
    have : step s (.drop x) = .ok s1 := h1
    rw [this] at h; cases h; exact h2
  | takeOver x f dims =>
    unfold step at h; dsimp only at h
    cases hx : get (.var x) s.held with
    | some t => rw [hx] at h; cases h; rfl
    | none => rw [hx] at h; cases h; rfl
  | giveBack f => exact absurd rfl (ho f)
  | «export» x m =>
    unfold step at h; dsimp only at h
    cases hx : get (.exported m) s.held with
    | some t => rw [hx] at h; cases h; rfl
    | none =>
      cases hy : get (.var x) s.held with
      | none => rw [hx, hy] at h; cases h; rfl
      | some t => rw [hx, hy] at h; cases h; unfold copyInto; cases t.owner <;> rfl
  | release m =>
    obtain ⟨s1, h1, _, _, h2, _⟩ := destroy_inv hs (.exported m)
    have : step s (.release m) = .ok s1 := h1
    rw [this] at h; cases h; exact h2
  | read k =>
    unfold step at h; dsimp only at h
    cases hx : get k s.held with
    | none => rw [hx] at h; cases h; rfl
    | some t =>
      rw [hx] at h; dsimp only at h
      split at h
      · cases h; rfl
      · cases h
  | query k =>
    unfold step at h; dsimp only at h
    cases hx : get k s.held with
    | none => rw [hx] at h; cases h; rfl
    | some t =>
      rw [hx] at h; dsimp only at h
      split at h
      · cases h; rfl
      · cases h

theorem read_ok {s : State} {o : Op} (h : ∀ k t, (o = .read k ∨ o = .query k) → get k s.held = some t →
    s.validMeta t.metadata = true ∧ s.valid t.data = true) (hs : Inv s) :
    ∃ s', step s o = .ok s' ∧ Inv s' := by
  rcases step_inv hs o with h1 | ⟨h1, k, t, hk, ht⟩
  · exact h1
  · exfalso
    obtain ⟨h2, h3⟩ := h k t hk ht
    rcases hk with rfl | rfl
    · unfold step at h1; dsimp only at h1; rw [ht] at h1; dsimp only at h1
      rw [h2, h3] at h1; cases h1
    · unfold step at h1; dsimp only at h1; rw [ht] at h1; dsimp only at h1
      rw [h2] at h1; cases h1

/-! ## C101: arrays stay valid as long as anything refers to them -/

/-- C101, proved part: as long as no array comes from another framework, no history of creating,
copying, slicing, assigning, destroying, exporting and releasing arrays ever reads freed memory or
frees memory twice. -/
theorem C101_own_arrays_partial (os : List Op) (h : NoTakeOver os) : ∃ s, run os = .ok s := by
  suffices H : ∀ (os : List Op) (s : State), NoTakeOver os → Inv s →
      (∀ e ∈ s.held, e.2.owner ≠ none) → ∃ s', runFrom s os = .ok s' from
    H os .init h init_inv (fun e he => absurd he List.not_mem_nil)
  intro os
  induction os with
  | nil => exact fun s _ _ _ => ⟨s, rfl⟩
  | cons o os ih =>
    intro s hno hs hown
    obtain ⟨s1, h1, h2⟩ := read_ok (o := o) (fun k t _ ht => by
      cases ho : t.owner with
      | none => exact absurd ho (hown _ (mem_of_get ht))
      | some b => exact owned_valid hs ht ho) hs
    obtain ⟨s', h'⟩ := ih s1 (fun p hp => hno p (List.mem_cons_of_mem _ hp)) h2
      (step_held (P := fun t => t.owner ≠ none) hs hown (fun _ _ h => h) (fun _ _ _ => by simp)
        (fun x f d e => absurd e (hno o List.mem_cons_self x f d)) (fun _ _ _ _ h => h) h1)
    exact ⟨s', by unfold runFrom; rw [h1]; exact h'⟩

/-- C101: after every history, the memory of an allocation is still there exactly if some variable
or some export that has not been released refers to it: nothing is freed early and nothing is kept
for longer. -/
theorem C101_freed_exactly (os : List Op) (s : State) (h : run os = .ok s) (b : Nat) (hb : b < s.next) :
    s.alive b ↔ s.inUse b := by
  have hs := runFrom_inv init_inv h
  have key : s.freed b = false ↔ 0 < owners b s.held := by
    rw [Nat.pos_iff_ne_zero, ← Bool.not_eq_true]
    exact not_congr (hs.freed_iff b hb)
  unfold State.alive State.inUse
  rw [key, owners, List.countP_pos_iff]
  constructor
  · rintro ⟨_, e, he, ho⟩
    exact ⟨e, he, ((hs.coherent e he).1 b (by simpa using ho)).1⟩
  · rintro ⟨e, he, hd⟩
    refine ⟨hb, e, he, ?_⟩
    cases ho : e.2.owner with
    | none => exact absurd hd ((hs.coherent e he).2 ho b)
    | some c =>
      have := ((hs.coherent e he).1 c ho).1
      rw [hd] at this; cases this; simp

/-- C101, proved part: arrays of other frameworks can be taken over, copied, sliced, exported and
destroyed in any order as long as the framework keeps its memory and no array is assigned to. -/
theorem C101_borrowed_partial (os : List Op) (h1 : NoAssign os) (h2 : NoGiveBack os) :
    ∃ s, run os = .ok s := by
  suffices H : ∀ (os : List Op) (s : State), NoAssign os → NoGiveBack os → Inv s →
      (∀ f, s.gone f = false) → (∀ e ∈ s.held, e.2.data ≠ .null) → ∃ s', runFrom s os = .ok s' from
    H os .init h1 h2 init_inv (fun _ => rfl) (fun e he => absurd he List.not_mem_nil)
  intro os
  induction os with
  | nil => exact fun s _ _ _ _ _ => ⟨s, rfl⟩
  | cons o os ih =>
    intro s ha hg hs hgone hnull
    obtain ⟨s1, h1, h2⟩ := read_ok (o := o) (fun k t _ ht => by
      constructor
      · cases hm : t.metadata with
        | none => rfl
        | some f => simp [State.validMeta, hgone]
      · cases ho : t.owner with
        | some b => exact (owned_valid hs ht ho).2
        | none =>
          have := (hs.coherent _ (mem_of_get ht)).2 ho
          have hn := hnull _ (mem_of_get ht)
          dsimp only at this hn
          cases hd : t.data with
          | own b => exact absurd hd (this b)
          | ext f => simp [State.valid, hgone]
          | null => exact absurd hd hn) hs
    obtain ⟨s', h'⟩ := ih s1 (fun p hp => ha p (List.mem_cons_of_mem _ hp))
      (fun p hp => hg p (List.mem_cons_of_mem _ hp)) h2
      (by rw [step_gone hs (hg o List.mem_cons_self) h1]; exact hgone)
      (step_held (P := fun t => t.data ≠ .null) hs hnull (fun _ _ h => h) (fun _ _ _ => by simp)
        (fun _ _ _ _ => by simp) (fun x y e => absurd e (ha o List.mem_cons_self x y)) h1)
    exact ⟨s', by unfold runFrom; rw [h1]; exact h'⟩

/-- C101: after every history, reading an element is undefined exactly for an array that owns no
memory and that was assigned from a borrowed one or whose lender has taken its memory back. -/
theorem C101_read_iff (os : List Op) (s : State) (h : run os = .ok s) (k : Key) (t : Tensor)
    (ht : get k s.held = some t) :
    step s (.read k) = .ub ↔
      t.owner = none ∧ (t.data = .null ∨ ∃ f, (t.data = .ext f ∨ t.metadata = some f) ∧ s.gone f = true) := by
  have hs := runFrom_inv init_inv h
  have hstep : step s (.read k) = if s.validMeta t.metadata && s.valid t.data then .ok s else .ub := by
    unfold step; dsimp only; rw [ht]
  rw [hstep]
  cases ho : t.owner with
  | some b =>
    obtain ⟨h1, h2⟩ := owned_valid hs ht ho
    rw [h1, h2]; simp
  | none =>
    have hco := (hs.coherent _ (mem_of_get ht)).2 ho
    dsimp only at hco
    constructor
    · intro hub
      refine ⟨rfl, ?_⟩
      cases hd : t.data with
      | own b => exact absurd hd (hco b)
      | null => exact Or.inl rfl
      | ext f =>
        refine Or.inr ?_
        cases hm : t.metadata with
        | none =>
          refine ⟨f, Or.inl rfl, ?_⟩
          rw [hd, hm] at hub
          by_contra hg
          simp [State.validMeta, State.valid, hg] at hub
        | some g =>
          by_cases hg : s.gone g = true
          · exact ⟨g, Or.inr rfl, hg⟩
          · refine ⟨f, Or.inl rfl, ?_⟩
            rw [hd, hm] at hub
            by_contra hf
            simp [State.validMeta, State.valid, hg, hf] at hub
    · rintro ⟨_, hd | ⟨f, hd | hm, hg⟩⟩
      · rw [hd]; simp [State.valid]
      · rw [hd]; simp [State.valid, hg]
      · rw [hm]; simp [State.validMeta, hg]

/-- C101 fails: whatever happened before, an array that is assigned from a borrowed one has no
memory, so reading it is undefined. -/
theorem C101_assigned_undefined (os : List Op) (s : State) (h : run os = .ok s) (x y : Nat) (hxy : x ≠ y)
    (t u : Tensor) (hx : get (.var x) s.held = some t) (hy : get (.var y) s.held = some u) (f : Nat)
    (hu : u.data = .ext f) : run (os ++ [.assign x y, .read (.var x)]) = .ub := by
  have hs := runFrom_inv init_inv h
  have huo : u.owner = none := by
    cases ho : u.owner with
    | none => rfl
    | some b =>
      have := ((hs.coherent _ (mem_of_get hy)).1 b ho).1
      dsimp only at this; rw [hu] at this; cases this
  unfold run at h ⊢
  rw [runFrom_append, h]
  show runFrom s _ = _
  obtain ⟨s1, h1, h2, _⟩ := assign_inv hs hx hy
  have hst : step s (.assign x y) =
      .ok { s1 with held := put (.var x) ⟨ownerPtr u.owner, u.owner, none, u.dims⟩ s1.held } := by
    unfold step; dsimp only; rw [hx, hy]; dsimp only; rw [if_neg hxy, h1]; rfl
  unfold runFrom; rw [hst]
  show runFrom _ _ = _
  unfold runFrom
  have hg : get (.var x) (put (.var x) (⟨ownerPtr u.owner, u.owner, none, u.dims⟩ : Tensor) s1.held) =
      some ⟨ownerPtr u.owner, u.owner, none, u.dims⟩ := by
    rw [h2, get_put hx, if_pos rfl]
  have : ∀ S : State, S.held = put (.var x) (⟨ownerPtr u.owner, u.owner, none, u.dims⟩ : Tensor) s1.held →
      step S (.read (.var x)) = .ub := by
    intro S hS
    unfold step; dsimp only; rw [hS, hg, huo]; rfl
  rw [this _ rfl]; rfl

/-- C101 fails: a borrowed array does not keep the memory it was taken from, so reading it after the
lender has freed it is undefined. -/
theorem C101_dangling_undefined (os : List Op) (s : State) (h : run os = .ok s) (k : Key) (t : Tensor)
    (ht : get k s.held = some t) (f : Nat) (hd : t.data = .ext f) :
    run (os ++ [.giveBack f, .read k]) = .ub := by
  unfold run at h ⊢
  rw [runFrom_append, h]
  show runFrom s _ = _
  unfold runFrom step
  show runFrom _ _ = _
  unfold runFrom step
  dsimp only; rw [ht]; dsimp only; rw [hd]
  simp [State.valid]

theorem get_remove {k k' : Key} (hk : k' ≠ k) : ∀ {l : List (Key × Tensor)},
    get k' (remove k l) = get k' l
  | [] => rfl
  | (k₁, t₁) :: l => by
    unfold remove
    by_cases h : k₁ = k
    · rw [if_pos h]; conv_rhs => unfold get
      rw [if_neg (by rintro rfl; exact hk h)]
    · rw [if_neg h]; unfold get; rw [get_remove hk]

theorem destroy_get {s s' : State} {k k' : Key} (hk : k' ≠ k) (h : destroy s k = .ok s') :
    get k' s'.held = get k' s.held := by
  unfold destroy at h
  cases hg : get k s.held with
  | none => rw [hg] at h; cases h; rfl
  | some t =>
    rw [hg] at h; dsimp only at h
    unfold State.release at h
    cases ho : t.owner with
    | none => rw [ho] at h; cases h; exact get_remove hk
    | some b =>
      rw [ho] at h; dsimp only at h
      split at h
      · cases h
      · cases h; exact get_remove hk

/-- Only releasing an export ends it. -/
theorem step_exported {s s' : State} (hs : Inv s) {m : Nat} {t : Tensor}
    (hm : get (.exported m) s.held = some t) {o : Op} (ho : o ≠ .release m) (h : step s o = .ok s') :
    get (.exported m) s'.held = some t := by
  have hcons : ∀ (k : Key) (u : Tensor), get k s.held = none →
      get (.exported m) ((k, u) :: s.held) = some t := by
    intro k u hk
    unfold get
    rw [if_neg, hm]
    rintro rfl; rw [hm] at hk; cases hk
  cases o with
  | create x dims =>
    unfold step at h; dsimp only at h
    cases hx : get (.var x) s.held with
    | some t => rw [hx] at h; cases h; exact hm
    | none => rw [hx] at h; cases h; exact hcons _ _ hx
  | copy x y =>
    unfold step at h; dsimp only at h
    cases hx : get (.var x) s.held with
    | some t => rw [hx] at h; cases h; exact hm
    | none =>
      cases hy : get (.var y) s.held with
      | none => rw [hx, hy] at h; cases h; exact hm
      | some u => rw [hx, hy] at h; cases h; exact hcons _ _ hx
  | view x y f =>
    unfold step at h; dsimp only at h
    cases hx : get (.var x) s.held with
    | some t => rw [hx] at h; cases h; exact hm
    | none =>
      cases hy : get (.var y) s.held with
      | none => rw [hx, hy] at h; cases h; exact hm
      | some u => rw [hx, hy] at h; cases h; exact hcons _ _ hx
  | assign x y =>
    unfold step at h; dsimp only at h
    cases hx : get (.var x) s.held with
    | none => rw [hx] at h; cases h; exact hm
    | some t =>
      cases hy : get (.var y) s.held with
      | none => rw [hx, hy] at h; cases h; exact hm
      | some u =>
        rw [hx, hy] at h; dsimp only at h
        by_cases hxy : x = y
        · rw [if_pos hxy] at h; cases h; exact hm
        · rw [if_neg hxy] at h
          obtain ⟨s1, h1, h2, _⟩ := assign_inv hs hx hy
          rw [h1] at h; cases h
          show get (.exported m) (put _ _ s1.held) = _
          rw [h2, get_put hx, if_neg (by simp), hm]
  | drop x =>
    have h : destroy s (.var x) = .ok s' := h
    rw [destroy_get (by simp) h, hm]
  | takeOver x f dims =>
    unfold step at h; dsimp only at h
    cases hx : get (.var x) s.held with
    | some t => rw [hx] at h; cases h; exact hm
    | none => rw [hx] at h; cases h; exact hcons _ _ hx
  | giveBack f => cases h; exact hm
  | «export» x m' =>
    unfold step at h; dsimp only at h
    cases hx : get (.exported m') s.held with
    | some t => rw [hx] at h; cases h; exact hm
    | none =>
      cases hy : get (.var x) s.held with
      | none => rw [hx, hy] at h; cases h; exact hm
      | some u => rw [hx, hy] at h; cases h; exact hcons _ _ hx
  | release m' =>
    have h : destroy s (.exported m') = .ok s' := h
    rw [destroy_get (by rintro e; cases e; exact ho rfl) h, hm]
  | read k =>
    unfold step at h; dsimp only at h
    cases hx : get k s.held with
    | none => rw [hx] at h; cases h; exact hm
    | some t =>
      rw [hx] at h; dsimp only at h
      split at h
      · cases h; exact hm
      · cases h
  | query k =>
    unfold step at h; dsimp only at h
    cases hx : get k s.held with
    | none => rw [hx] at h; cases h; exact hm
    | some t =>
      rw [hx] at h; dsimp only at h
      split at h
      · cases h; exact hm
      · cases h

/-- C101: an array that has been handed out and is not released keeps its memory whatever the
program does afterwards. The capsule it travels in has no destructor (`pybland.hpp:27`), so an
export that is never consumed is never released. -/
theorem C101_export_keeps (os ps : List Op) (s s' : State) (h : run os = .ok s) (x m b : Nat)
    (t : Tensor) (hx : get (.var x) s.held = some t) (hm : get (.exported m) s.held = none)
    (hd : t.data = .own b) (hps : ∀ o ∈ ps, o ≠ .release m)
    (h' : run (os ++ .export x m :: ps) = .ok s') : s'.alive b := by
  have hs := runFrom_inv init_inv h
  unfold run at h h'
  rw [runFrom_append, h] at h'
  have h' : runFrom s (.export x m :: ps) = .ok s' := h'
  have hst : step s (.export x m) = .ok (copyInto s (.exported m) t) := by
    unfold step; dsimp only; rw [hm, hx]
  have hto : t.owner = some b := by
    cases ho : t.owner with
    | none => exact absurd hd ((hs.coherent _ (mem_of_get hx)).2 ho b)
    | some c =>
      have := ((hs.coherent _ (mem_of_get hx)).1 c ho).1
      dsimp only at this; rw [hd] at this; cases this; rfl
  have hc := copy_inv (k := .exported m) hs ⟨_, mem_of_get hx, rfl⟩ (hs.coherent _ (mem_of_get hx))
  unfold runFrom at h'
  rw [hst] at h'
  have h' : runFrom (copyInto s (.exported m) t) ps = .ok s' := h'
  have H : ∀ (ps : List Op) (S : State), Inv S → (∀ o ∈ ps, o ≠ .release m) → ∀ (u : Tensor),
      get (.exported m) S.held = some u → runFrom S ps = .ok s' →
      Inv s' ∧ get (.exported m) s'.held = some u := by
    intro ps
    induction ps with
    | nil => intro S hS _ u hu h; cases h; exact ⟨hS, hu⟩
    | cons o ps ih =>
      intro S hS hps u hu h
      unfold runFrom at h
      rcases step_inv hS o with ⟨S1, h1, h2⟩ | ⟨h1, _⟩
      · rw [h1] at h
        exact ih S1 h2 (fun p hp => hps p (List.mem_cons_of_mem _ hp)) u
          (step_exported hS hu (hps o List.mem_cons_self) h1) h
      · rw [h1] at h; cases h
  obtain ⟨hI, hg⟩ := H ps _ hc hps ⟨t.data, t.owner, none, t.dims⟩
    (by show get _ ((Key.exported m, _) :: _) = _; unfold get; rw [if_pos rfl]) h'
  have hv := (owned_valid hI hg hto).2
  dsimp only at hv
  rw [hd] at hv
  simp only [State.valid, Bool.and_eq_true, decide_eq_true_eq, Bool.not_eq_true'] at hv
  exact hv

/-- A history with everything a program can do to its own arrays: two arrays, a copy and a slice of
the first, an assignment that frees the second, an export that outlives all variables. -/
def exOwn : List Op :=
  [.create 0 [⟨3, 1, 0⟩], .create 1 [⟨2, 1, 0⟩], .copy 2 0, .view 3 0 (fun d => d), .assign 1 0,
   .read (.var 1), .drop 0, .drop 1, .export 3 0, .drop 2, .drop 3, .read (.exported 0), .query (.exported 0)]

example : NoTakeOver exOwn := by unfold exOwn NoTakeOver; simp

/-- … of whose two allocations the second is freed and the first still in use. -/
example : ∃ s, run exOwn = .ok s ∧ s.next = 2 ∧ s.freed 0 = false ∧ s.freed 1 = true ∧
    get (.exported 0) s.held ≠ none := ⟨_, rfl, rfl, rfl, rfl, by decide +kernel⟩

/-- … and without users after the release. -/
example : ∃ s, run (exOwn ++ [.release 0]) = .ok s ∧ s.freed 0 = true ∧ s.held = [] :=
  ⟨_, rfl, rfl, rfl⟩

/-- A borrowed array that is copied, sliced and exported. -/
def exBorrowed : List Op :=
  [.takeOver 0 7 [⟨3, 1, 0⟩], .copy 1 0, .view 2 0 (fun d => d), .read (.var 1), .drop 0,
   .read (.var 2), .export 2 0, .read (.exported 0)]

example : NoAssign exBorrowed ∧ NoGiveBack exBorrowed := by
  unfold exBorrowed NoAssign NoGiveBack; simp

/-- The assignment that loses the memory: `y` is borrowed, `x = y`, `x` is read. -/
example : run [.create 0 [], .takeOver 1 7 [], .assign 0 1, .read (.var 0)] = .ub := rfl

/-- The copy of a borrowed array has sizes of its own, the borrowed array itself has not: its shape
cannot be asked for once the lender is gone. -/
example : run [.takeOver 0 7 [], .copy 1 0, .giveBack 7, .query (.var 1)] ≠ .ub ∧
    run [.takeOver 0 7 [], .copy 1 0, .giveBack 7, .query (.var 0)] = .ub :=
  ⟨fun h => (by cases h), rfl⟩

end Bliss.Own
