import Verif.Base

/-!
# The find_hits program (C65)

Models the output loop of `main` in bliss/bliss_find_hits.cpp lines 138-166 together with the part
of `write_scan_hits_to_file` (bliss/file_types/hits_file.cpp lines 52-70) that decides which file
is replaced. The processing of lines 112-136 is outside this module: the scans here are the ones
that come out of it. What a file holds is kept as the format and the list of hits written; bytes
are modelled in `Verif.File.Model`.
-/

namespace Bliss.FindHits

/-- A file path. -/
abbrev Path := List Char

/-- What the program leaves behind: the files (`none`: no such file, else the format and hits last
written to it), and the hits printed, one entry per scan. -/
structure World (H : Type) where
  disk : Path → Option (List Char × H)
  printed : List H

/-- Replace the content of the file at `p`. -/
def World.put {H : Type} (w : World H) (p : Path) (c : Option (List Char × H)) : World H :=
  { w with disk := fun q => if q = p then c else w.disk q }

/-- The surroundings of the loop. `hits` is `scan::hits()`, which may throw; `capnpName` is
`fs::path(p).filename().replace_extension("capnp")`; `canOpen` says whether a path can be opened
for writing. -/
structure Env (Sc H : Type) where
  hits : Sc → Outcome H
  capnpName : Path → Path
  canOpen : Path → Bool

variable {Sc H : Type}

/-- hits_file.cpp lines 52-70 with `detail::raii_file_for_write` (bliss/file_types/detail/
raii_file_helpers.hpp: `O_CREAT | O_TRUNC`): replaces the file at `path`. Failure to open throws.
Simplification: writes to an opened file succeed. -/
def writeScanHits (E : Env Sc H) (sc : Sc) (path format : List Char) (w : World H) :
    Outcome (World H) := do
  if E.canOpen path then
    let h ← E.hits sc
    pure (w.put path (some (format, h)))
  else .throws .runtimeError

/-- The variables `output_path` and `output_format` (bliss_find_hits.cpp lines 48-49). -/
structure Out where
  path : Path
  format : List Char

/-- bliss_find_hits.cpp lines 144-149. `pipeline_files[scan_index]` past the end is undefined. -/
def resolve (E : Env Sc H) (files : List Path) (i : Nat) (o : Out) : Outcome Out :=
  if o.path = [] then
    match files[i]? with
    | some f => .ok ⟨E.capnpName f, "capnp".toList⟩
    | none => .ub
  else .ok o

/-- bliss_find_hits.cpp lines 151-158. -/
def emit (E : Env Sc H) (sc : Sc) (h : H) (o : Out) (w : World H) : Outcome (World H) :=
  if o.path = "-".toList ∨ o.path = "stdout".toList then
    .ok { w with printed := w.printed ++ [h] }
  else writeScanHits E sc o.path o.format w

/-- bliss_find_hits.cpp lines 140-159: the loop over the scans from number `i`. The pair is the
world when the loop stopped and whether it stopped by an exception. -/
def loop (E : Env Sc H) (files : List Path) : Nat → List Sc → Out → World H →
    Outcome (World H × Bool)
  | _, [], _, w => .ok (w, false)
  | i, sc :: rest, o, w =>
    match E.hits sc with
    | .throws _ => .ok (w, true)
    | .ub => .ub
    | .ok h => match resolve E files i o with
      | .throws _ => .ok (w, true)
      | .ub => .ub
      | .ok o' => match emit E sc h o' w with
        | .throws _ => .ok (w, true)
        | .ub => .ub
        | .ok w' => loop E files (i + 1) rest o' w'

/-- bliss_find_hits.cpp lines 138-166: the exception is caught and the program ends with status 0
either way. -/
def run (E : Env Sc H) (files : List Path) (scans : List Sc) (o : Out) (w : World H) :
    Outcome (World H × Nat) :=
  match loop E files 0 scans o w with
  | .ok (w', _) => .ok (w', 0)
  | .throws e => .throws e
  | .ub => .ub

/-! ## Specification -/

/-- The output option asks for the terminal. -/
def ToStdout (p : Path) : Prop := p = "-".toList ∨ p = "stdout".toList

/-- The hits `h` are in some file. -/
def OnDisk (w : World H) (h : H) : Prop := ∃ p f, w.disk p = some (f, h)

/-! ## Proofs -/

theorem emit_file {E : Env Sc H} {sc : Sc} {h : H} {o : Out} {w : World H}
    (hs : ¬ ToStdout o.path) (ho : E.canOpen o.path = true) (hh : E.hits sc = .ok h) :
    emit E sc h o w = .ok (w.put o.path (some (o.format, h))) := by
  unfold ToStdout at hs
  unfold emit
  rw [if_neg hs]
  simp [writeScanHits, ho, hh]

theorem loop_file {E : Env Sc H} {files : List Path} {hitsOf : Sc → H} {o : Out}
    (hne : o.path ≠ []) (hs : ¬ ToStdout o.path) (ho : E.canOpen o.path = true) :
    ∀ (scans : List Sc) (i : Nat) (w : World H), (∀ sc ∈ scans, E.hits sc = .ok (hitsOf sc)) →
    loop E files i scans o w = .ok (match scans.getLast? with
      | some sc => w.put o.path (some (o.format, hitsOf sc))
      | none => w, false)
  | [], i, w, _ => by
    simp only [loop, List.getLast?_nil]
  | sc :: rest, i, w, hh => by
    have h1 := hh sc (by simp)
    simp only [loop, h1, resolve, if_neg hne, emit_file hs ho h1]
    rw [loop_file hne hs ho rest (i + 1) _ (fun s hs' => hh s (by simp [hs']))]
    cases rest with
    | nil => rfl
    | cons a t =>
      rw [List.getLast?_cons_cons, List.getLast?_eq_some_getLast (by simp)]
      simp only [World.put, Outcome.ok.injEq, Prod.mk.injEq, and_true]
      congr 1
      funext q
      by_cases hq : q = o.path <;> simp [hq]

/-- The path the program writes to: the option, or the name made from the *first* input file. -/
def target (E : Env Sc H) (firstFile : Path) (o : Out) : Out :=
  if o.path = [] then ⟨E.capnpName firstFile, "capnp".toList⟩ else o

theorem run_eq {E : Env Sc H} {f : Path} {files : List Path} {sc : Sc} {scans : List Sc}
    {o : Out} {w : World H} {hitsOf : Sc → H}
    (hname : E.capnpName f ≠ []) (hs : ¬ ToStdout (target E f o).path)
    (ho : E.canOpen (target E f o).path = true)
    (hh : ∀ s ∈ sc :: scans, E.hits s = .ok (hitsOf s)) :
    run E (f :: files) (sc :: scans) o w = .ok (w.put (target E f o).path
      (some ((target E f o).format, hitsOf ((sc :: scans).getLast (by simp)))), 0) := by
  have hne : (target E f o).path ≠ [] := by unfold target; split <;> simp_all
  have key : loop E (f :: files) 0 (sc :: scans) o w =
      loop E (f :: files) 0 (sc :: scans) (target E f o) w := by
    have hr : resolve E (f :: files) 0 o = .ok (target E f o) := by
      unfold resolve target; split <;> rfl
    have hr' : resolve E (f :: files) 0 (target E f o) = .ok (target E f o) := by
      unfold resolve; rw [if_neg hne]
    simp only [loop, hr, hr']
  unfold run
  rw [key, loop_file hne hs ho (sc :: scans) 0 w hh, List.getLast?_eq_some_getLast (by simp)]

/-- **C65** for a single input file: whatever the output option (a path that can be opened, or
none), afterwards the hits of the scan are in the file asked for, or in the one named after the
input, and every other file is as before. Missing: several input files, where the property fails
(`C65_only_last_kept`). -/
theorem C65_single_scan_partial {E : Env Sc H} {f : Path} {sc : Sc} {o : Out} {w : World H} {h : H}
    (hname : E.capnpName f ≠ []) (hs : ¬ ToStdout (target E f o).path)
    (ho : E.canOpen (target E f o).path = true) (hh : E.hits sc = .ok h) :
    ∃ w', run E [f] [sc] o w = .ok (w', 0) ∧
      w'.disk (if o.path = [] then E.capnpName f else o.path) =
        some (if o.path = [] then "capnp".toList else o.format, h) ∧
      ∀ q, q ≠ (if o.path = [] then E.capnpName f else o.path) → w'.disk q = w.disk q := by
  refine ⟨_, run_eq (files := []) (scans := []) (hitsOf := fun _ => h) hname hs ho
    (by simpa using hh), ?_, ?_⟩
  · by_cases h0 : o.path = [] <;> simp [target, h0, World.put]
  · intro q hq
    by_cases h0 : o.path = [] <;> simp_all [target, World.put]

/-- **C65** for several scans: whatever the option and however many input files, the loop writes
one single path, so only the last scan's hits are left and every other file is as before the
run. -/
theorem C65_only_last_kept {E : Env Sc H} {f : Path} {files : List Path} {sc : Sc}
    {scans : List Sc} {o : Out} {w : World H} {hitsOf : Sc → H}
    (hname : E.capnpName f ≠ []) (hs : ¬ ToStdout (target E f o).path)
    (ho : E.canOpen (target E f o).path = true)
    (hh : ∀ s ∈ sc :: scans, E.hits s = .ok (hitsOf s)) :
    ∃ w', run E (f :: files) (sc :: scans) o w = .ok (w', 0) ∧
      (∃ p fmt, w'.disk p = some (fmt, hitsOf ((sc :: scans).getLast (by simp))) ∧
        ∀ q, q ≠ p → w'.disk q = w.disk q) :=
  ⟨_, run_eq hname hs ho hh, (target E f o).path, (target E f o).format, if_pos rfl,
    fun q hq => if_neg hq⟩

/-- **C65** fails: for any two or more scans, if a scan's hits differ from the last one's and were
not already on disk, they are on disk nowhere afterwards, although the program reports success. -/
theorem C65_hits_lost {E : Env Sc H} {f : Path} {files : List Path} {sc : Sc}
    {scans : List Sc} {o : Out} {w : World H} {hitsOf : Sc → H}
    (hname : E.capnpName f ≠ []) (hs : ¬ ToStdout (target E f o).path)
    (ho : E.canOpen (target E f o).path = true)
    (hh : ∀ s ∈ sc :: scans, E.hits s = .ok (hitsOf s))
    {lost : Sc} (hdiff : hitsOf lost ≠ hitsOf ((sc :: scans).getLast (by simp)))
    (hnew : ¬ OnDisk w (hitsOf lost)) :
    ∃ w', run E (f :: files) (sc :: scans) o w = .ok (w', 0) ∧ ¬ OnDisk w' (hitsOf lost) := by
  obtain ⟨w', h1, p, fmt, h2, h3⟩ := C65_only_last_kept (files := files) (w := w) hname hs ho hh
  refine ⟨w', h1, ?_⟩
  rintro ⟨q, fmt', hq⟩
  by_cases hqp : q = p
  · subst hqp; rw [h2] at hq; simp only [Option.some.injEq, Prod.mk.injEq] at hq
    exact hdiff hq.2.symm
  · exact hnew ⟨q, fmt', by rw [← h3 q hqp]; exact hq⟩

/-- Printing to the terminal reports every scan, in order, and touches no file. -/
theorem C65_stdout_all {E : Env Sc H} {files : List Path} {o : Out} {hitsOf : Sc → H}
    (hs : ToStdout o.path) : ∀ (scans : List Sc) (w : World H),
    (∀ s ∈ scans, E.hits s = .ok (hitsOf s)) →
    run E files scans o w = .ok ({ w with printed := w.printed ++ scans.map hitsOf }, 0) := by
  have hne : o.path ≠ [] := by rcases hs with h | h <;> rw [h] <;> decide
  have key : ∀ (scans : List Sc) (i : Nat) (w : World H),
      (∀ s ∈ scans, E.hits s = .ok (hitsOf s)) → loop E files i scans o w =
        .ok ({ w with printed := w.printed ++ scans.map hitsOf }, false) := by
    intro scans
    induction scans with
    | nil => intro i w _; simp [loop]
    | cons sc rest ih =>
      intro i w hh
      have he : emit E sc (hitsOf sc) o w =
          .ok { w with printed := w.printed ++ [hitsOf sc] } := by
        unfold ToStdout at hs; unfold emit; rw [if_pos hs]
      simp only [loop, hh sc (by simp), resolve, if_neg hne, he]
      rw [ih (i + 1) _ (fun s hs' => hh s (by simp [hs']))]
      simp
  intro scans w hh
  unfold run
  rw [key scans 0 w hh]

/-- A scan whose hits cannot be computed ends the run: later scans are not written, and the exit
status still says success. -/
theorem C65_failure_reported_as_success {E : Env Sc H} {files : List Path} {sc : Sc}
    {rest : List Sc} {o : Out} {w : World H} {e : Err} (h : E.hits sc = .throws e) :
    run E files (sc :: rest) o w = .ok (w, 0) := by
  simp [run, loop, h]

/-- An output file that cannot be opened ends the run in the same way: nothing is written, no later scan
is looked at, and the exit status still says success. -/
theorem C65_unwritable_reported_as_success {E : Env Sc H} {f : Path} {files : List Path} {sc : Sc}
    {rest : List Sc} {o : Out} {w : World H} {h : H} (hs : ¬ ToStdout (target E f o).path)
    (ho : E.canOpen (target E f o).path = false) (hh : E.hits sc = .ok h) :
    run E (f :: files) (sc :: rest) o w = .ok (w, 0) := by
  have hr : resolve E (f :: files) 0 o = .ok (target E f o) := by
    unfold resolve target; split <;> rfl
  have he : emit E sc h (target E f o) w = .throws .runtimeError := by
    unfold ToStdout at hs
    unfold emit
    rw [if_neg hs]
    simp [writeScanHits, ho]
  simp only [run, loop, hh, hr, he]

/-- A concrete environment: names end in `.capnp`, everything can be opened, hits are lists. -/
def exEnv : Env (List Nat) (List Nat) where
  hits := .ok
  capnpName := fun p => p ++ ".capnp".toList
  canOpen := fun _ => true

/-- Concrete case for `C65_unwritable_reported_as_success`. -/
example : run { exEnv with canOpen := fun _ => false } ["a".toList] [[1], [2]] ⟨"x".toList, []⟩
    ⟨fun _ => none, []⟩ = .ok (⟨fun _ => none, []⟩, 0) :=
  C65_unwritable_reported_as_success (h := [1]) (by unfold ToStdout; decide) rfl rfl

/-- Concrete case for `C65_hits_lost`: two files, no output option; the first scan's hits are
lost. -/
example : ∃ w', run exEnv ["a".toList, "b".toList] [[1], [2]] ⟨[], []⟩ ⟨fun _ => none, []⟩ =
    .ok (w', 0) ∧ ¬ OnDisk w' [1] :=
  C65_hits_lost (E := exEnv) (hitsOf := id) (lost := [1]) (by decide)
    (by unfold ToStdout; decide) rfl (fun _ _ => rfl) (by decide) (fun ⟨_, _, h⟩ => by simp at h)

/-- Concrete case for `C65_single_scan_partial`: an explicit `.dat` path. -/
example : ∃ w', run exEnv ["a".toList] [[1, 2]] ⟨"x.dat".toList, []⟩ ⟨fun _ => none, []⟩ =
    .ok (w', 0) ∧ w'.disk "x.dat".toList = some ([], [1, 2]) := by
  obtain ⟨w', h, h2, _⟩ := C65_single_scan_partial (E := exEnv) (f := "a".toList) (sc := [1, 2])
    (o := ⟨"x.dat".toList, []⟩) (w := ⟨fun _ => none, []⟩) (h := [1, 2]) (by decide)
    (by unfold ToStdout; decide) rfl rfl
  exact ⟨w', h, by simpa using h2⟩

end Bliss.FindHits
