import Verif.Cadence.Model
import Verif.Flag.Model
import Verif.Misc.FindHits

/-!
# `bliss_find_hits` on the host (C153)

`main` of `bliss/bliss_find_hits.cpp` from the input files to the output files, with a device on which
the arrays are in host memory (`-d cpu`).
-/

namespace Bliss.HostRun

open Bliss.Scan Bliss.Cadence Bliss.Flag Bliss.FindHits

variable {F D Dev P : Type}

/-- A step that is added to a scan (`scan::coarse_channel_transform`). -/
abbrev Step (F D Dev P : Type) := Channel F D Dev P → Outcome (Channel F D Dev P)

/-- What `flag_sigmaclip` calls: samples and mask of a channel, mean and deviation of the samples that a
mask leaves, the mask of the samples outside of bounds, the test for convergence, the mask of zeros, and
storing the sum of two masks. -/
structure Clipping (F D Dev P A S M : Type) where
  data : Channel F D Dev P → Outcome A
  mask : Channel F D Dev P → Outcome M
  stats : A → M → Outcome S
  clip : A → S → Outcome M
  close : S → S → Bool
  zeros : A → M
  store : M → M → Channel F D Dev P → Outcome (Channel F D Dev P)

variable {A S M : Type}

/-- `flag_sigmaclip(coarse_channel, …)` (`sigmaclip.cpp:34-48`). The samples of a file are `float`
(`h5_filterbank_file.cpp:141-162`, C97), and so are quotients of them. -/
def clipStep (k : Clipping F D Dev P A S M) (maxIter : Int) : Step F D Dev P := fun c => do
  let d ← k.data c
  let m ← k.mask c
  let (rfi, _) ← sigmaclip .float32 (k.stats d) (k.clip d) k.close (k.zeros d) maxIter
  k.store m rfi c

/-- `main` (`bliss_find_hits.cpp:112-166`): open the files, slice, choose the device, add the steps and
write the hits. `before` are the steps ahead of sigma clipping (`normalize`, `equalize_passband_filter` or
`flag_filter_rolloff`, `flag_spectral_kurtosis`), `after` those behind it (`estimate_noise_power`,
`integrate_drifts`, `hit_search`, `filter_hits`); both are any functions of a channel here. Exceptions
outside the `try` of line 138 end the program. Simplified: the hits of a scan are computed once per
scan. -/
def findHits (o : DOps D) (devOk : Dev → Bool) (host dflt : Dev) (openScan : Path → Outcome (Scan F D Dev P))
    (capnpName : Path → Path) (canOpen : Path → Bool) (before after : List (Step F D Dev P))
    (k : Clipping F D Dev P A S M) (maxIter start count : Int) (files : List Path) (out : Out)
    (w : World (List (Hit.Hit F D))) : Outcome (World (List (Hit.Hit F D)) × Nat) := do
  let scans ← files.mapM openScan
  let target := Target.slice o dflt (Target.make dflt scans) start count
  let (target, set) := target.setDevice devOk host
  set
  let steps := before ++ clipStep k maxIter :: after
  run ⟨fun s => (Scan.hits o devOk s).2, capnpName, canOpen⟩ files
    (target.scans.map fun s => steps.foldl (fun s t => Scan.addTransform t s) s) out w

/-! ## Proofs -/

theorem clipStep_not_ok (k : Clipping F D Dev P A S M) (maxIter : Int) (c r : Channel F D Dev P) :
    clipStep k maxIter c ≠ .ok r := by
  intro h
  unfold clipStep at h
  cases h1 : k.data c with
  | ub => rw [h1] at h; cases h
  | throws e => rw [h1] at h; cases h
  | ok d =>
    rw [h1, Outcome.bind_ok] at h
    cases h2 : k.mask c with
    | ub => rw [h2] at h; cases h
    | throws e => rw [h2] at h; cases h
    | ok m => rw [h2, Outcome.bind_ok] at h; cases h

theorem applyAll_not_ok (before after : List (Step F D Dev P)) (k : Clipping F D Dev P A S M) (maxIter : Int)
    (c r : Channel F D Dev P) : applyAll (before ++ clipStep k maxIter :: after) c ≠ .ok r := by
  induction before generalizing c with
  | nil =>
    intro h
    unfold applyAll at h
    rw [List.nil_append, List.foldlM_cons] at h
    cases h1 : clipStep k maxIter c with
    | ub => rw [h1] at h; cases h
    | throws e => rw [h1] at h; cases h
    | ok x => exact clipStep_not_ok k maxIter c x h1
  | cons t ts ih =>
    intro h
    unfold applyAll at h
    rw [List.cons_append, List.foldlM_cons] at h
    cases h1 : t c with
    | ub => rw [h1] at h; cases h
    | throws e => rw [h1] at h; cases h
    | ok x =>
      rw [h1, Outcome.bind_ok] at h
      exact ih x h

theorem addAll (steps : List (Step F D Dev P)) (s : Scan F D Dev P) :
    steps.foldl (fun s t => Scan.addTransform t s) s = { s with pipeline := s.pipeline ++ steps } := by
  induction steps generalizing s with
  | nil => simp
  | cons t ts ih => rw [List.foldl_cons, ih]; simp [Scan.addTransform]

theorem hits_not_ok (o : DOps D) (devOk : Dev → Bool) (s : Scan F D Dev P) (before after : List (Step F D Dev P))
    (k : Clipping F D Dev P A S M) (maxIter : Int) (hp : s.pipeline = before ++ clipStep k maxIter :: after)
    (hn : 0 < s.num) (l : List (Hit.Hit F D)) : (Scan.hits o devOk s).2 ≠ .ok l := by
  intro h
  unfold Scan.hits at h
  obtain ⟨n, hnn⟩ : ∃ n, s.num.toNat = n + 1 := ⟨s.num.toNat - 1, by omega⟩
  rw [hnn] at h
  simp only [Scan.hitsFrom] at h
  have hfin : ∀ key c r, (Scan.finish devOk s key c).2 ≠ .ok r := by
    intro key c r hr
    unfold Scan.finish at hr
    cases hs : Channel.setDevice devOk s.device c with
    | ub => rw [hs] at hr; cases hr
    | throws e => rw [hs] at hr; cases hr
    | ok c' =>
      rw [hs] at hr
      simp only [hp] at hr
      exact applyAll_not_ok before after k maxIter c' r hr
  have hread : ∀ r, (Scan.read o devOk s 0).2 ≠ .ok r := by
    intro r hr
    unfold Scan.read at hr
    split at hr
    · cases hr
    · split at hr
      · exact hfin _ _ _ hr
      · split at hr
        · exact hfin _ _ _ hr
        · cases hr
        · cases hr
  rcases hq : Scan.read o devOk s 0 with ⟨s', x⟩
  rw [hq] at h
  cases x with
  | ub => cases h
  | throws e => cases h
  | ok c => exact hread c (by rw [hq])

theorem mapM_mem {α β : Type} {f : α → Outcome β} {l : List α} {r : List β} (h : l.mapM f = .ok r) :
    ∀ y ∈ r, ∃ x ∈ l, f x = .ok y := by
  induction l generalizing r with
  | nil => rw [List.mapM_nil] at h; cases h; simp
  | cons a l ih =>
    rw [List.mapM_cons] at h
    cases h1 : f a with
    | ub => rw [h1] at h; cases h
    | throws e => rw [h1] at h; cases h
    | ok b =>
      rw [h1, Outcome.bind_ok] at h
      cases h2 : l.mapM f with
      | ub => rw [h2] at h; cases h
      | throws e => rw [h2] at h; cases h
      | ok bs =>
        rw [h2, Outcome.bind_ok] at h
        cases h
        intro y hy
        rcases List.mem_cons.1 hy with rfl | hy
        · exact ⟨a, by simp, h1⟩
        · obtain ⟨x, hx, he⟩ := ih h2 y hy
          exact ⟨x, by simp [hx], he⟩

theorem setAll_ok {α : Type} (f : α → α × Outcome Unit) (l : List α) (h : (setAll f l).2 = .ok ()) :
    (setAll f l).1 = l.map fun a => (f a).1 := by
  induction l with
  | nil => rfl
  | cons a l ih =>
    unfold setAll at h ⊢
    rcases hf : f a with ⟨a', x⟩
    rw [hf] at h
    cases x with
    | ub => cases h
    | throws e => cases h
    | ok u => simp only [List.map_cons, hf]; rw [ih h]

/-- **C153 is violated:** on the host, whatever the files, the options and the other steps, a run over at
least one coarse channel writes no file and prints no hits; if it ends regularly it has only shown an error
message, and its status is 0. -/
theorem C153_no_hits (o : DOps D) (devOk : Dev → Bool) (host dflt : Dev)
    (openScan : Path → Outcome (Scan F D Dev P)) (hnew : ∀ p s, openScan p = .ok s → s.pipeline = [])
    (capnpName : Path → Path) (canOpen : Path → Bool) (before after : List (Step F D Dev P))
    (k : Clipping F D Dev P A S M) (maxIter start count : Int) (hc : 0 < count) (files : List Path) (out : Out)
    (w w' : World (List (Hit.Hit F D))) (status : Nat)
    (h : findHits o devOk host dflt openScan capnpName canOpen before after k maxIter start count files out w =
      .ok (w', status)) : w' = w ∧ status = 0 := by
  unfold findHits at h
  cases hs : files.mapM openScan with
  | ub => rw [hs] at h; cases h
  | throws e => rw [hs] at h; cases h
  | ok scans =>
    rw [hs, Outcome.bind_ok] at h
    simp only [Target.setDevice] at h
    split at h
    swap
    · cases h
    cases hset : (setAll (Cadence.Scan.setDevice devOk host)
        (Target.slice o dflt (Target.make dflt scans) start count).scans).2 with
    | ub => rw [hset] at h; cases h
    | throws e => rw [hset] at h; cases h
    | ok u =>
      rw [hset, Outcome.bind_ok, setAll_ok _ _ hset] at h
      simp only [Target.slice, Target.make, List.map_map] at h
      cases scans with
      | nil =>
        simp only [List.map_nil, run, loop] at h
        cases h
        exact ⟨rfl, rfl⟩
      | cons s rest =>
        obtain ⟨p, -, hp⟩ := mapM_mem hs s (by simp)
        have hpipe := hnew p s hp
        simp only [List.map_cons, run, loop, Function.comp] at h
        have hn := hits_not_ok o devOk
          ((before ++ clipStep k maxIter :: after).foldl (fun s t => Scan.addTransform t s)
            (Cadence.Scan.setDevice devOk host (Scan.slice o s start count)).1) before after k maxIter
          (by
            rw [addAll]
            unfold Cadence.Scan.setDevice
            split <;> simp [Scan.slice, hpipe])
          (by
            rw [addAll]
            unfold Cadence.Scan.setDevice
            have : count ≠ -1 := by omega
            split <;> simp [Scan.slice, this, hc])
        cases hh : (Scan.hits o devOk
          ((before ++ clipStep k maxIter :: after).foldl (fun s t => Scan.addTransform t s)
            (Cadence.Scan.setDevice devOk host (Scan.slice o s start count)).1)).2 with
        | ok l => exact absurd hh (hn l)
        | ub => rw [hh] at h; cases h
        | throws e =>
          rw [hh] at h
          cases h
          exact ⟨rfl, rfl⟩

/-- Non-vacuity: a file of two coarse channels of four fine channels, no steps ahead of sigma clipping; the
run ends with status 0 and nothing written. -/
example (ops : DOps Int) (hdr : Header Int) :
    ∃ w : World (List (Hit.Hit Int Int)), findHits (F := Int) (P := Unit) (A := Unit) (S := Unit)
    (M := Unit) ops (fun _ => true) "cpu" "cpu"
    (fun _ => .ok ⟨fun _ => none, some (.ok [3, 1, 8]), [], 0, hdr, 8, 4, 2, 0, 3, 0, "cpu"⟩)
    (fun p => p) (fun _ => true) [] [] ⟨fun _ => .ok (), fun _ => .ok (), fun _ _ => .ok (), fun _ _ => .ok (),
      fun _ _ => true, fun _ => (), fun _ _ c => .ok c⟩ 5 0 1 ["a.h5".toList] ⟨[], []⟩ ⟨fun _ => none, []⟩ =
    .ok (w, 0) := ⟨_, rfl⟩

end Bliss.HostRun
