import Verif.Scan.Model

/-!
# Lemmas about scans: reading does not depend on what has been read before
-/

namespace Bliss.Scan

open Bliss.Hit (Hit)

variable {F D Dev P : Type} {o : DOps D} {devOk : Dev → Bool}

/-- The channel at index `i` before the pipeline: from memory if it is there, else from the file. -/
def base (o : DOps D) (devOk : Dev → Bool) (s : Scan F D Dev P) (i : Int) :
    Outcome (Channel F D Dev P) :=
  match s.cache (i + s.offset) with
  | some c => .ok c
  | none => fresh o devOk s i

/-- What a read of index `i` delivers. -/
def view (o : DOps D) (devOk : Dev → Bool) (s : Scan F D Dev P) (i : Int) :
    Outcome (Channel F D Dev P) :=
  if i < 0 ∨ i > s.num then .throws .outOfRange
  else do
    let c ← base o devOk s i
    let c' ← Channel.setDevice devOk s.device c
    applyAll s.pipeline c'

theorem finish_snd (s : Scan F D Dev P) (key : Int) (c : Channel F D Dev P) :
    (finish devOk s key c).2 = (Channel.setDevice devOk s.device c >>= applyAll s.pipeline) := by
  unfold finish
  cases Channel.setDevice devOk s.device c <;> rfl

theorem read_view (s : Scan F D Dev P) (i : Int) : (read o devOk s i).2 = view o devOk s i := by
  unfold read view base
  by_cases hi : i < 0 ∨ i > s.num
  · rw [if_pos hi, if_pos hi]
  · rw [if_neg hi, if_neg hi]
    cases s.cache (i + s.offset) with
    | some c => simp only [finish_snd, Outcome.bind_ok]
    | none =>
      simp only []
      cases fresh o devOk s i with
      | ok c => simp only [finish_snd, Outcome.bind_ok]
      | throws e => rfl
      | ub => rfl

/-- `s'` differs from `s` only in what is in memory, and in nothing that a read can see. -/
structure SameView (o : DOps D) (devOk : Dev → Bool) (s s' : Scan F D Dev P) : Prop where
  frame : s' = { s with cache := s'.cache }
  view : ∀ j, (base o devOk s' j >>= Channel.setDevice devOk s.device) =
    (base o devOk s j >>= Channel.setDevice devOk s.device)

theorem SameView.refl (s : Scan F D Dev P) : SameView o devOk s s := ⟨rfl, fun _ => rfl⟩

theorem SameView.trans {s s' s'' : Scan F D Dev P} (h1 : SameView o devOk s s')
    (h2 : SameView o devOk s' s'') : SameView o devOk s s'' := by
  refine ⟨?_, fun j => ?_⟩
  · have := h2.frame
    rw [h1.frame] at this
    exact this
  · have hd : s'.device = s.device := by rw [h1.frame]
    have := h2.view j
    rw [hd] at this
    exact this.trans (h1.view j)

theorem setDevice_setDevice (dev : Dev) (c : Channel F D Dev P) :
    (Channel.setDevice devOk dev c >>= Channel.setDevice devOk dev) =
      Channel.setDevice devOk dev c := by
  unfold Channel.setDevice
  by_cases h : devOk dev = true
  · simp only [h, if_true, Outcome.bind_ok]
  · simp only [h]
    rfl

theorem finish_same (s : Scan F D Dev P) (i : Int) (c : Channel F D Dev P)
    (hc : (base o devOk s i >>= Channel.setDevice devOk s.device) =
      Channel.setDevice devOk s.device c) :
    SameView o devOk s (finish devOk s (i + s.offset) c).1 := by
  have key : ∀ c1 : Channel F D Dev P,
      Channel.setDevice devOk s.device c1 = Channel.setDevice devOk s.device c →
      SameView o devOk s { s with cache := fun k => if k = i + s.offset then some c1 else s.cache k } := by
    intro c1 h1
    refine ⟨rfl, fun j => ?_⟩
    unfold base
    simp only []
    by_cases hj : j + s.offset = i + s.offset
    · rw [if_pos hj]
      have hji : j = i := by omega
      subst hji
      simp only [Outcome.bind_ok]
      rw [h1, ← hc]
      rfl
    · rw [if_neg hj]
      rfl
  unfold finish
  cases hs : Channel.setDevice devOk s.device c with
  | ok c' =>
    refine key c' ?_
    have := setDevice_setDevice (devOk := devOk) s.device c
    rw [hs, Outcome.bind_ok] at this
    rw [this, hs]
  | throws e => exact key c rfl
  | ub => exact SameView.refl s

theorem read_same (s : Scan F D Dev P) (i : Int) : SameView o devOk s (read o devOk s i).1 := by
  unfold read
  by_cases hi : i < 0 ∨ i > s.num
  · rw [if_pos hi]; exact SameView.refl s
  · rw [if_neg hi]
    cases hc : s.cache (i + s.offset) with
    | some c =>
      refine finish_same s i c ?_
      unfold base
      rw [hc]; rfl
    | none =>
      simp only []
      cases hf : fresh o devOk s i with
      | ok c =>
        refine finish_same s i c ?_
        unfold base
        rw [hc]; simp only [hf, Outcome.bind_ok]
      | throws e => exact SameView.refl s
      | ub => exact SameView.refl s

theorem peek_same (s : Scan F D Dev P) (i : Int) : SameView o devOk s (peek devOk s i).1 := by
  unfold peek
  by_cases hi : i < 0 ∨ i > s.num
  · rw [if_pos hi]; exact SameView.refl s
  · rw [if_neg hi]
    cases hc : s.cache (i + s.offset) with
    | some c =>
      refine finish_same s i c ?_
      unfold base
      rw [hc]; rfl
    | none => exact SameView.refl s

theorem SameView.view_eq {s s' : Scan F D Dev P} (h : SameView o devOk s s') (i : Int) :
    Scan.view o devOk s' i = Scan.view o devOk s i := by
  have hv := h.view i
  have hd : s'.device = s.device := by rw [h.frame]
  have hn : s'.num = s.num := by rw [h.frame]
  have hp : s'.pipeline = s.pipeline := by rw [h.frame]
  unfold Scan.view
  rw [hd, hn, hp]
  by_cases hi : i < 0 ∨ i > s.num
  · rw [if_pos hi, if_pos hi]
  · rw [if_neg hi, if_neg hi]
    have e1 : (base o devOk s' i >>= fun c => Channel.setDevice devOk s.device c >>=
        fun c' => applyAll s.pipeline c') =
        ((base o devOk s' i >>= Channel.setDevice devOk s.device) >>= applyAll s.pipeline) := by
      rw [bind_assoc]
    have e2 : (base o devOk s i >>= fun c => Channel.setDevice devOk s.device c >>=
        fun c' => applyAll s.pipeline c') =
        ((base o devOk s i >>= Channel.setDevice devOk s.device) >>= applyAll s.pipeline) := by
      rw [bind_assoc]
    rw [e1, e2, hv]

/-! ## Histories -/

/-- What a user can do with a scan between reads. -/
inductive Op (F D Dev P : Type)
  | read (i : Int)
  | peek (i : Int)
  | add (t : Channel F D Dev P → Outcome (Channel F D Dev P))
  | hits

theorem hitsFrom_same (k : Nat) (i : Int) (s : Scan F D Dev P) :
    SameView o devOk s (hitsFrom o devOk k i s).1 := by
  induction k generalizing i s with
  | zero => exact SameView.refl s
  | succ k ih =>
    have hr := read_same (o := o) (devOk := devOk) s i
    unfold hitsFrom
    cases hx : read o devOk s i with
    | mk s' r =>
      rw [hx] at hr
      cases r with
      | throws e => exact hr
      | ub => exact hr
      | ok c =>
        simp only []
        cases hg : c.getHits with
        | ub => exact hr
        | throws e =>
          simp only []
          split
          · exact hr.trans (ih (i + 1) s')
          · exact hr
        | ok hs => exact hr.trans (ih (i + 1) s')

/-- One operation; its result is dropped, exceptions included. -/
def step (o : DOps D) (devOk : Dev → Bool) (s : Scan F D Dev P) : Op F D Dev P → Scan F D Dev P
  | .read i => (read o devOk s i).1
  | .peek i => (peek devOk s i).1
  | .add t => addTransform t s
  | .hits => (hits o devOk s).1

/-- A sequence of operations. -/
def run (o : DOps D) (devOk : Dev → Bool) (s : Scan F D Dev P) (ops : List (Op F D Dev P)) :
    Scan F D Dev P :=
  ops.foldl (step o devOk) s

/-- The transforms that a sequence of operations adds, in order. -/
def added : List (Op F D Dev P) → List (Channel F D Dev P → Outcome (Channel F D Dev P))
  | [] => []
  | .add t :: ops => t :: added ops
  | .read _ :: ops => added ops
  | .peek _ :: ops => added ops
  | .hits :: ops => added ops

theorem SameView.pipeline {s s' : Scan F D Dev P} (h : SameView o devOk s s')
    (ts : List (Channel F D Dev P → Outcome (Channel F D Dev P))) :
    SameView o devOk { s with pipeline := s.pipeline ++ ts }
      { s' with pipeline := s'.pipeline ++ ts } := by
  have hp : s'.pipeline = s.pipeline := by rw [h.frame]
  refine ⟨?_, fun j => ?_⟩
  · rw [h.frame]
  · have := h.view j
    exact this

theorem run_same (ops : List (Op F D Dev P)) (s : Scan F D Dev P) :
    SameView o devOk { s with pipeline := s.pipeline ++ added ops } (run o devOk s ops) := by
  induction ops generalizing s with
  | nil => simp only [added, List.append_nil]; exact SameView.refl s
  | cons op ops ih =>
    have frame : ∀ (s' : Scan F D Dev P), SameView o devOk s s' →
        SameView o devOk { s with pipeline := s.pipeline ++ added ops } (run o devOk s' ops) :=
      fun s' h => (h.pipeline (added ops)).trans (ih s')
    cases op with
    | read i => exact frame _ (read_same s i)
    | peek i => exact frame _ (peek_same s i)
    | hits => exact frame _ (hitsFrom_same _ _ s)
    | add t =>
      have := ih (addTransform t s)
      simp only [addTransform, List.append_assoc, List.singleton_append] at this
      exact this

/-- Reading after any history. -/
theorem read_run (ops : List (Op F D Dev P)) (s : Scan F D Dev P) (i : Int) :
    (read o devOk (run o devOk s ops) i).2 =
      view o devOk { s with pipeline := s.pipeline ++ added ops } i := by
  rw [read_view]
  exact (run_same ops s).view_eq i

end Bliss.Scan
