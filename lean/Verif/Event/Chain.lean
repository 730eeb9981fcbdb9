import Verif.Hit.Chain
import Verif.Event.EndToEnd

/-!
# From the filterbank files of a cadence to its events, with all steps of `bliss_find_hits` (C150)

As `Verif/Event/EndToEnd.lean`, where every file is put through flagging, noise estimate, drift
integration, hit search and filter (`bliss/bliss_find_hits.cpp` lines 113-136) before the event search.
-/

namespace Bliss.Event

open Bliss.Hit (Hit F32 Steps LoneTone Unflagged chainHits)
open Bliss.File (Event mapAll)
open Bliss.Float (Rounding)
open Bliss.Drift (Fl)
open Bliss.Scan (Scan Attrs openFile)

variable {R24 : Rounding 24} {Dev D : Type}

/-! ## The program -/

/-- A filterbank file. -/
structure Source (R24 : Rounding 24) where
  file : H5Read.File (F32 R24)
  attrs : Attrs Fl

/-- A file is opened, all steps of `bliss_find_hits` attached, and its hits asked for
(`scan.cpp:118-209`, `bliss_find_hits.cpp:113-136`, `scan.cpp:293-295`, `316-331`). Simplified: the
transforms that the steps add to the scan are one here, that computes the hits of a channel. -/
def searchFileAll (R53 : Rounding 53) (c : Config R24 Dev) (st : Steps (F32 R24) D) (x : Source R24) :
    Outcome (ScanHits (F32 R24) Fl) :=
  (openFile (P := Unit) c.o c.dev x.attrs (H5Shape.getDataShape x.file.toDataset) c.fine).bind fun s =>
    scanSeen c.o c.devOk (Scan.addTransform (fun ch => (chainHits R24 R53 c.ar c.o c.fltMin c.junkHit
      c.junk x.file ch st c.ro c.op c.heap c.flags).bind fun hs => .ok { ch with hits := some (.ok hs) }) s)

/-- The files of a cadence, target by target, are put through all steps, and the cadence is searched for
events (`event_search.cpp:76-100`). -/
def searchCadenceAll (R53 : Rounding 53) (c : Config R24 Dev) (st : Steps (F32 R24) D)
    (targets : List (List (Source R24))) : Outcome (List (Event ℚ ℚ)) :=
  (mapAll (mapAll fun x => (searchFileAll R53 c st x).bind finScan) targets).bind fun cad =>
    eventSearch ieee exMap cad

/-! ## Specification -/

/-- The file with the noise that the steps measure in each of its coarse channels. -/
def Source.measured (x : Source R24) (st : Steps (F32 R24) D) (g : Geometry) : Recording R24 where
  file := x.file
  attrs := x.attrs
  noise := st.noiseAt x.file g.T g.fine

/-- Some channels of a coarse channel of the file hold the signal, up to `δ` Hz and `ρ` Hz/s, and no
other, above the threshold over the measured noise; they are not flagged for band edges or low kurtosis,
and the drift is not one that the filter takes for none. Whatever is elsewhere in the file stays `K` Hz
away from the signal. -/
def ObservesAll (c : Config R24 Dev) (st : Steps (F32 R24) D) (x : Source R24) (g : Geometry)
    (f r δ ρ t0 t1 K : ℚ) : Prop :=
  ∃ i k d a e, 0 ≤ i ∧ i < g.num ∧
    LoneTone c.ar x.file g.T g.fine i c.ro (st.noiseAt x.file g.T g.fine i).1
      (st.noiseAt x.file g.T g.fine i).2 c.op k d a e ∧
    Unflagged st x.file g.T g.fine i c.ro a e ∧
    (st.zeroDrift = true → ∀ q : ℚ, |q - g.rate d| ≤ 2 ^ (-22 : ℤ) * |g.rate d| →
      st.tiny (.fin q) = false) ∧
    |g.freq k - (f + r * g.begins)| ≤ δ ∧ |g.rate d - r| ≤ ρ ∧ FarOutside c g f r t0 t1 K i a e ∧
    ∀ i', 0 ≤ i' → i' < g.num → i' ≠ i → NotNear c (x.measured st g) g f r t0 t1 K i'

/-! ## Proofs -/

/-- What the steps return for a file. -/
theorem fileAll_facts (R53 : Rounding 53) {c : Config R24 Dev} (hc : c.Valid R53)
    {st : Steps (F32 R24) D} {x : Source R24} {g : Geometry} (hv : (x.measured st g).Valid c g)
    (hst : ∀ i, 0 ≤ i → i < g.num → st.Fits x.file g.T g.fine i) :
    ∃ (H : Nat → List (Hit (F32 R24) Fl)) (dur : ℚ),
      searchFileAll R53 c st x = .ok ⟨.fin g.tstart, .fin dur, (List.range g.num.toNat).flatMap H⟩ ∧
      ∀ i : Nat, (i : Int) < g.num → ChannelSays c (x.measured st g) g (fun _ _ _ => False)
        (fun i _ d a e => Unflagged st x.file g.T g.fine i c.ro a e ∧
          (st.zeroDrift = true → ∀ q : ℚ, |q - g.rate d| ≤ 2 ^ (-22 : ℤ) * |g.rate d| →
            st.tiny (.fin q) = false)) i (H i) := by
  obtain ⟨s, hopen, hfine, hnum⟩ := hv.opens
  have hro := hv.searches
  rw [← hfine] at hro
  have hfac : ∀ i : Nat, (i : Int) < g.num → _ := fun i hi =>
    Hit.chain_facts R53 c.ar c.o hc.doubles c.devOk c.fltMin c.junkHit c.junk c.heap c.flags
      hv.bank hv.start hc.dev hc.fine hopen (ops := []) rfl (i := (i : Int)) ⟨by omega, by omega⟩ hro
      hc.drifts hv.steps st (by rw [hfine]; exact hst i (by omega) hi) c.op hc.method hc.fltMin hc.thr
  classical
  let H : Nat → List (Hit (F32 R24) Fl) := fun i => if hi : (i : Int) < g.num then
    (hfac i hi).choose else []
  have hH : ∀ (i : Nat) (hi : (i : Int) < g.num), H i = (hfac i hi).choose := fun i hi => dif_pos hi
  obtain ⟨dur, hdur⟩ := file_hits R53 hc hv hopen hnum (fun ch => chainHits R24 R53 c.ar c.o c.fltMin
    c.junkHit c.junk x.file ch st c.ro c.op c.heap c.flags) H (fun i hi => by
      rw [hH i hi]
      exact (hfac i hi).choose_spec.1)
  refine ⟨H, dur, ?_, fun i hi => ?_⟩
  · unfold searchFileAll
    have hopen' : openFile c.o c.dev x.attrs (H5Shape.getDataShape x.file.toDataset) c.fine = .ok s := hopen
    rw [hopen']
    exact hdur
  · obtain ⟨-, f1, f2, f3⟩ := (hfac i hi).choose_spec
    rw [← hH i hi, hfine] at f1 f2 f3
    obtain ⟨-, -, -, -, -, -, c6, c7⟩ := Hit.open_channel c.o c.devOk hv.bank hc.dev hc.fine hopen
      (ops := []) rfl (i := (i : Int)) (by omega) (by omega)
    rw [hfine] at c6 c7
    refine ⟨⟨Int.mul_nonneg c6 (by omega), by rw [Int.mul_add, Int.mul_one]; exact c7⟩,
      fun h hh => ?_, f2, fun k d ht => ht.elim, fun k d a e hof ht => f3 k d a e ht hof.1 hof.2⟩
    obtain ⟨m, d, freq, rate, start, dur, w1, w2, w3, ⟨v, w4⟩, w5⟩ := f1 h hh
    exact ⟨m, d, freq, rate, start, dur, w1, w2, w3, ⟨v.val, by rw [w4, hc.toD]⟩, w5⟩

/-- **C150 (part).** A cadence of files: 2 to 1000 recordings of the first target, any number of targets
and recordings besides, all between `t0` and `t1`. Each file is put through all steps of
`bliss_find_hits`: band edges and channels of unusual kurtosis are flagged, the noise is measured on the
samples without a flag, drifts are integrated, hits searched and filtered. A signal is at `f + r * t` Hz
at time `t`. In every recording of the first target some channels of a coarse channel hold it, to within
`δ - 1` Hz and a little less than `ρ` Hz/s, as the only signal above the threshold over the noise
measured there, with quiet channels on both sides, and none of the channels it or its surroundings can
reach is flagged. All other lines above the threshold, in these recordings and in those of other targets,
stay away from the signal (by 5.1 kHz and twice the errors). Then the whole run succeeds and reports
exactly one event with hits of the signal, which has one hit of every recording of the first target, in
order.

Missing: float overflow and underflow; desmeared drifts; more than 512 time steps. -/
theorem C150_signal_all_steps_partial {R53 : Rounding 53} {c : Config R24 Dev} (hc : c.Valid R53)
    (st : Steps (F32 R24) D) (f r δ ρ t0 t1 M : ℚ) (on : List (Source R24 × Geometry))
    (offs : List (List (Source R24 × Geometry)))
    (hvalid : ∀ x ∈ (on :: offs).flatten, (x.1.measured st x.2).Valid c x.2 ∧ Within c x.2 t0 t1 M ∧
      ∀ i, 0 ≤ i → i < x.2.num → st.Fits x.1.file x.2.T x.2.fine i)
    (hon2 : 2 ≤ on.length) (hon : on.length ≤ 1000) (ht : t1 - t0 ≤ 1000000) (hM : M ≤ 999)
    (hδ : 1 ≤ δ) (hρ : M / 4000000 ≤ ρ) (hr : |r| ≤ 1000) (hρr : ρ ≤ |r|)
    (hsmall : 1 / 100 * (2 * δ + 2 * ρ * (t1 - t0)) +
      10 * (2 * ρ / (1 / 100000000 + 2 * (|r| - ρ) ^ 2)) ^ 2 ≤ 49)
    (hobs : ∀ x ∈ on, ObservesAll c st x.1 x.2 f r (δ - 1) (ρ - M / 4000000) t0 t1
      (5100 + 2 * (δ + ρ * (t1 - t0))))
    (hoff : ∀ x ∈ offs.flatten, ∀ i, 0 ≤ i → i < x.2.num →
      NotNear c (x.1.measured st x.2) x.2 f r t0 t1 (5100 + 2 * (δ + ρ * (t1 - t0))) i) :
    ∃ (es : List (Event ℚ ℚ)) (hs : List (Hit ℚ ℚ)),
      searchCadenceAll R53 c st ((on :: offs).map (List.map Prod.fst)) = .ok es ∧
      (es.map Event.hits).filter (fun l => l.any (measures f r δ ρ)) = [hs] ∧
      List.Forall₂ (fun x h => Measures f r δ ρ h ∧ |h.startTime - x.2.begins| ≤ 1 / 100000) on hs := by
  have ht0 : t0 ≤ t1 := by
    obtain ⟨x, hx⟩ := List.exists_mem_of_length_pos (show 0 < on.length by omega)
    exact (hvalid x (by simp [hx])).2.1.le
  refine cadence_seen (fun x => (searchFileAll R53 c st x).bind finScan) f r δ ρ t0 t1 on offs hon2 hon
    ht hρr hsmall (fun x hx => ?_) fun x hx => ?_
  · obtain ⟨v1, v2, v3⟩ := hvalid x (by simp [hx])
    obtain ⟨H, dur, h1, h2⟩ := fileAll_facts R53 hc v1 v3
    obtain ⟨i, k, d, a, e, i0, i1, htone, hun, hz, hfk, hrd, hout, hq⟩ := hobs x hx
    exact seen_on h1 h2 v1 v2 hM ht0 ht hδ hρ hr ⟨i, k, d, ⟨i0, i1⟩,
      Or.inr ⟨a, e, ⟨hun, hz⟩, htone, hout⟩, hfk, hrd, hq⟩
  · obtain ⟨v1, v2, v3⟩ := hvalid x (by rw [List.flatten_cons]; exact List.mem_append_right _ hx)
    obtain ⟨H, dur, h1, h2⟩ := fileAll_facts R53 hc v1 v3
    exact seen_off h1 h2 v1 v2 hM ht0 ht hδ hρ hr fun i i0 i1 => hoff x hx i i0 i1

end Bliss.Event
