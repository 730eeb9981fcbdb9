import Verif.Cadence.Props

/-!
# C64: operations on scans, targets and cadences

A scan-level operation is either deferred (`add_coarse_channel_transform`) or a loop over the
channels. The per-channel operation is an arbitrary transform `t`; it is a function of the channel,
so what a transform does to memory shared between channels (C60) is not part of this model.
-/

namespace Bliss.Flag

open Bliss.Scan Bliss.Cadence

variable {F D Dev P : Type}

/-- A per-channel operation. -/
abbrev Transform (F D Dev P : Type) := Channel F D Dev P → Outcome (Channel F D Dev P)

/-- The deferred scan-level operations: `flag_filter_rolloff` (`filter_rolloff.cpp:29-34`),
`flag_spectral_kurtosis` (`spectral_kurtosis.cpp:47-53`), `flag_sigmaclip` (`sigmaclip.cpp:50-55`),
`estimate_noise_power` (`noise_estimate.cpp:171-179`), `normalize` (`normalize.cpp:24-27`),
`integrate_drifts` (`integrate_drifts.cpp:76-79`), `hit_search` (`hit_search.cpp:60-67`) and
`filter_hits` (`filter_hits.cpp:55-61`). The argument is taken by value. -/
def deferred (t : Transform F D Dev P) (s : Scan F D Dev P) : Scan F D Dev P := addTransform t s

/-- The loop of `flag_magnitude(scan, …)` (`magnitude.cpp:40-56`) and
`equalize_passband_filter(scan, …)` (`passband_static_equalize.cpp:123-130`) over channels
`i, …, i+k-1`: the processed channel is assigned to what `read_coarse_channel` returned, a new
`coarse_channel` that nothing else refers to. -/
def assignLoop (o : DOps D) (devOk : Dev → Bool) (t : Transform F D Dev P) :
    Nat → Int → Scan F D Dev P → Scan F D Dev P × Outcome Unit
  | 0, _, s => (s, .ok ())
  | k + 1, i, s =>
    match read o devOk s i with
    | (s', .throws e) => (s', .throws e)
    | (s', .ub) => (s', .ub)
    | (s', .ok c) =>
      match t c with
      | .throws e => (s', .throws e)
      | .ub => (s', .ub)
      | .ok _ => assignLoop o devOk t k (i + 1) s'

/-- `flag_magnitude(scan, …)` and `equalize_passband_filter(scan, …)`. -/
def assigned (o : DOps D) (devOk : Dev → Bool) (t : Transform F D Dev P) (s : Scan F D Dev P) :
    Outcome (Scan F D Dev P) :=
  match assignLoop o devOk t s.num.toNat 0 s with
  | (s', .ok _) => .ok s'
  | (_, .throws e) => .throws e
  | (_, .ub) => .ub

/-- The target-level operations: the scan-level one on every scan (e.g. `hit_search.cpp:69-74`). -/
def onTarget (f : Scan F D Dev P → Scan F D Dev P) (t : Target F D Dev P) : Target F D Dev P :=
  { t with scans := t.scans.map f }

/-- The cadence-level operations: the target-level one on every target (e.g.
`hit_search.cpp:76-81`). -/
def onCadence (f : Scan F D Dev P → Scan F D Dev P) (c : Cadence F D Dev P) : Cadence F D Dev P :=
  { c with targets := c.targets.map (onTarget f) }

/-- Target-level operations that may throw. -/
def onTargetM (f : Scan F D Dev P → Outcome (Scan F D Dev P)) (t : Target F D Dev P) :
    Outcome (Target F D Dev P) := do
  let l ← t.scans.mapM f
  pure { t with scans := l }

/-- Cadence-level operations that may throw. -/
def onCadenceM (f : Scan F D Dev P → Outcome (Scan F D Dev P)) (c : Cadence F D Dev P) :
    Outcome (Cadence F D Dev P) := do
  let l ← c.targets.mapM (onTargetM f)
  pure { c with targets := l }

variable {o : DOps D} {devOk : Dev → Bool}

theorem bind_assoc' {A B C : Type} (x : Outcome A) (f : A → Outcome B) (g : B → Outcome C) :
    ((x >>= f) >>= g) = (x >>= fun a => f a >>= g) := by
  cases x <;> rfl

theorem view_append (s : Scan F D Dev P) (t : Transform F D Dev P) (i : Int) :
    view o devOk { s with pipeline := s.pipeline ++ [t] } i = (view o devOk s i >>= t) := by
  unfold view
  simp only []
  by_cases hi : i < 0 ∨ i > s.num
  · rw [if_pos hi, if_pos hi]; rfl
  · rw [if_neg hi, if_neg hi, bind_assoc']
    congr 1
    funext c
    rw [bind_assoc']
    congr 1
    funext c'
    simp only [applyAll, List.foldlM_append, List.foldlM_cons, List.foldlM_nil]
    congr 1
    funext c''
    cases t c'' <;> rfl

/-- **C64 (deferred operations, scan)**. After a deferred operation, with any reads, peeks and hit
collections before and after it, a read of any channel is the read without the operation followed by
the operation on that channel.

Missing from C64: `flag_magnitude` and `equalize_passband_filter`, whose effect is lost
(`C64_effect_lost`). -/
theorem C64_deferred_partial (t : Transform F D Dev P) (s : Scan F D Dev P)
    (before after : List (Op F D Dev P)) (ha : added after = []) (i : Int) :
    (read o devOk (run o devOk (deferred t (run o devOk s before)) after) i).2 =
      ((read o devOk (run o devOk s before) i).2 >>= t) := by
  rw [read_run, ha, List.append_nil, read_view]
  exact view_append (run o devOk s before) t i

/-- **C64 (deferred operations, target)**: the same for every scan of a target. -/
theorem C64_deferred_target_partial (t : Transform F D Dev P) (tg : Target F D Dev P) (k : Nat)
    (s : Scan F D Dev P) (hs : tg.scans[k]? = some s) :
    ∃ s', (onTarget (deferred t) tg).scans[k]? = some s' ∧
      (onTarget (deferred t) tg).scans.length = tg.scans.length ∧
      (onTarget (deferred t) tg).name = tg.name ∧
      ∀ (ops : List (Op F D Dev P)), added ops = [] → ∀ i,
        (read o devOk (run o devOk s' ops) i).2 = ((read o devOk s i).2 >>= t) := by
  refine ⟨deferred t s, ?_, ?_, rfl, fun ops hops i => C64_deferred_partial t s [] ops hops i⟩
  · simp [onTarget, hs]
  · simp [onTarget]

/-- **C64 (deferred operations, cadence)**: the same for every scan of every target of a cadence. -/
theorem C64_deferred_cadence_partial (t : Transform F D Dev P) (c : Cadence F D Dev P) (m k : Nat)
    (tg : Target F D Dev P) (s : Scan F D Dev P) (ht : c.targets[m]? = some tg)
    (hs : tg.scans[k]? = some s) :
    ∃ tg' s', (onCadence (deferred t) c).targets[m]? = some tg' ∧ tg'.scans[k]? = some s' ∧
      (onCadence (deferred t) c).targets.length = c.targets.length ∧
      tg'.scans.length = tg.scans.length ∧
      ∀ (ops : List (Op F D Dev P)), added ops = [] → ∀ i,
        (read o devOk (run o devOk s' ops) i).2 = ((read o devOk s i).2 >>= t) := by
  obtain ⟨s', h1, h2, _, h4⟩ := C64_deferred_target_partial (o := o) (devOk := devOk) t tg k s hs
  exact ⟨onTarget (deferred t) tg, s', by simp [onCadence, ht], h1, by simp [onCadence], h2, h4⟩

theorem assignLoop_same (t : Transform F D Dev P) (k : Nat) (i : Int) (s : Scan F D Dev P) :
    SameView o devOk s (assignLoop o devOk t k i s).1 := by
  induction k generalizing i s with
  | zero => exact SameView.refl s
  | succ k ih =>
    have hr := read_same (o := o) (devOk := devOk) s i
    unfold assignLoop
    cases hx : read o devOk s i with
    | mk s' r =>
      rw [hx] at hr
      cases r with
      | throws e => exact hr
      | ub => exact hr
      | ok c =>
        simp only []
        cases t c with
        | throws e => exact hr
        | ub => exact hr
        | ok c' => exact hr.trans (ih (i + 1) s')

/-- **Violation of C64.** Whatever the per-channel operation, the scans that `flag_magnitude(scan)`
and `equalize_passband_filter(scan)` return read, for every channel and after any further history,
exactly like the scan they were given. -/
theorem C64_effect_lost (t : Transform F D Dev P) (s s' : Scan F D Dev P)
    (hr : assigned o devOk t s = .ok s') (ops : List (Op F D Dev P)) (i : Int) :
    (read o devOk (run o devOk s' ops) i).2 = (read o devOk (run o devOk s ops) i).2 := by
  have hsame : SameView o devOk s s' := by
    have := assignLoop_same (o := o) (devOk := devOk) t s.num.toNat 0 s
    unfold assigned at hr
    cases hx : assignLoop o devOk t s.num.toNat 0 s with
    | mk s1 r =>
      rw [hx] at hr this
      cases r with
      | ok u => simp only [Outcome.ok.injEq] at hr; rw [← hr]; exact this
      | throws e => cases hr
      | ub => cases hr
  rw [read_run, read_run]
  exact ((hsame.pipeline (added ops)).view_eq i)

/-- They still read and process every channel, so what goes wrong with the first one goes wrong with
the call. -/
theorem C64_failure_kept (t : Transform F D Dev P) (s : Scan F D Dev P) (hn : 0 < s.num)
    (hbad : ∀ c, ((read o devOk s 0).2 >>= t) ≠ .ok c) :
    (∀ e, ((read o devOk s 0).2 >>= t) = .throws e → assigned o devOk t s = .throws e) ∧
      (((read o devOk s 0).2 >>= t) = .ub → assigned o devOk t s = .ub) := by
  obtain ⟨k, hk⟩ : ∃ k, s.num.toNat = k + 1 := ⟨s.num.toNat - 1, by omega⟩
  unfold assigned
  rw [hk, assignLoop]
  cases hx : read o devOk s 0 with
  | mk s' r =>
    rw [hx] at hbad
    cases r with
    | throws e => exact ⟨fun e' he => (by cases he; rfl), fun he => (by cases he)⟩
    | ub => exact ⟨fun e' he => (by cases he), fun _ => rfl⟩
    | ok c =>
      simp only [Outcome.bind_ok] at hbad ⊢
      cases ht : t c with
      | throws e => exact ⟨fun e' he => (by cases he; rfl), fun he => (by cases he)⟩
      | ub => exact ⟨fun e' he => (by cases he), fun _ => rfl⟩
      | ok c' => exact absurd ht (hbad c')

/-- The same for targets: no scan of the returned target reads differently. -/
theorem C64_effect_lost_target (t : Transform F D Dev P) (tg tg' : Target F D Dev P)
    (hr : onTargetM (assigned o devOk t) tg = .ok tg') :
    List.Forall₂ (fun s s' => ∀ ops i,
      (read o devOk (run o devOk s' ops) i).2 = (read o devOk (run o devOk s ops) i).2)
      tg.scans tg'.scans := by
  have key : ∀ (l l' : List (Scan F D Dev P)), l.mapM (assigned o devOk t) = .ok l' →
      List.Forall₂ (fun s s' => ∀ ops i,
        (read o devOk (run o devOk s' ops) i).2 = (read o devOk (run o devOk s ops) i).2) l l' := by
    intro l
    induction l with
    | nil =>
      intro l' h
      simp only [List.mapM_nil, Outcome.pure_eq, Outcome.ok.injEq] at h
      subst h
      exact .nil
    | cons s l ih =>
      intro l' h
      rw [List.mapM_cons] at h
      cases hx : assigned o devOk t s with
      | throws e => rw [hx] at h; cases h
      | ub => rw [hx] at h; cases h
      | ok s' =>
        rw [hx] at h
        simp only [Outcome.bind_ok] at h
        cases hy : l.mapM (assigned o devOk t) with
        | throws e => rw [hy] at h; cases h
        | ub => rw [hy] at h; cases h
        | ok l1 =>
          rw [hy] at h
          simp only [Outcome.bind_ok, Outcome.pure_eq, Outcome.ok.injEq] at h
          subst h
          exact .cons (fun ops i => C64_effect_lost t s s' hx ops i) (ih l1 hy)
  unfold onTargetM at hr
  cases hy : tg.scans.mapM (assigned o devOk t) with
  | throws e => rw [hy] at hr; cases hr
  | ub => rw [hy] at hr; cases hr
  | ok l1 =>
    rw [hy] at hr
    simp only [Outcome.bind_ok, Outcome.pure_eq, Outcome.ok.injEq] at hr
    subst hr
    exact key _ _ hy

/-- A transform that marks the channel. -/
def mark : Transform ℚ ℚ Bool Unit := fun c => .ok { c with fch1 := c.fch1 + 1 }

-- concrete case: a deferred operation changes what is read, an assigned one returns and does not
example : (read Scan.ratOps id (deferred mark exScan) 1).2 =
      ((read Scan.ratOps id exScan 1).2 >>= mark) ∧
    ∃ s', assigned Scan.ratOps id mark exScan = .ok s' ∧
      (read Scan.ratOps id s' 1).2 = (read Scan.ratOps id exScan 1).2 := by
  refine ⟨C64_deferred_partial mark exScan [] [] rfl 1, ?_⟩
  have : ∃ s', assigned Scan.ratOps id mark exScan = .ok s' := ⟨_, rfl⟩
  obtain ⟨s', hs'⟩ := this
  exact ⟨s', hs', C64_effect_lost mark exScan s' hs' [] 1⟩

end Bliss.Flag
