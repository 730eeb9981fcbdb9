import Verif.Event.IsolatedFloat
import Verif.Event.Frame
import Verif.Cadence.ToDat

/-!
# C143: event search on hits that were read from a file

A cadence with its hits is written with `write_cadence_hits_to_capnp_files` and read back with
`read_cadence_hits_from_capnp_files` (`Cadence/Serial.lean`), then searched for events. The record of
a hit holds its start time and duration as `float`.
-/

namespace Bliss.Event

open Bliss.Hit (Hit FOrd)
open Bliss.File (Event Conv stored Storable)
open Bliss.Float (rne)
open Bliss.Cadence (Cadence Junk ScanMsg ScanStorable ScanBack writeFile readFile toCadenceMsg ofCadenceMsg)
open Bliss.File (Framing mapAll)
open Bliss.Scan (Scan DOps Channel)

variable {F D Dev P : Type}

/-! ## The cadence that the search sees -/

/-- What `event_search` asks of one scan (`event_search.cpp:88`, `119-124`, `161`): `tstart()`,
`tduration_secs()` and `hits()`. -/
def scanSeen (o : DOps D) (devOk : Dev → Bool) (s : Scan F D Dev P) : Outcome (ScanHits F D) :=
  (Scan.hits o devOk s).2.bind fun hs => .ok ⟨s.hdr.tstart, s.duration, hs⟩

/-- What `event_search` asks of a cadence (`event_search.cpp:76-100`). Simplified: the hits of the
other targets are asked for once; the code asks again for every candidate, and `scan::hits` gives the
same list each time (C32, C33). -/
def cadenceSeen (o : DOps D) (devOk : Dev → Bool) (c : Cadence F D Dev P) :
    Outcome (List (List (ScanHits F D))) :=
  mapAll (fun t => mapAll (scanSeen o devOk) t.scans) c.targets

/-- A scan with its hits as they come back from a file. -/
def storedScan (C : Conv F D) (sc : ScanHits F D) : ScanHits F D :=
  { sc with hits := sc.hits.map (stored C) }

/-- A scan that a file can store, with the duration that its first channel says. -/
def Recorded (o : DOps D) (devOk : Dev → Bool) (C : Conv F D) (s : Scan F D Dev P) : Prop :=
  ∃ ch hs, ScanStorable o devOk C s ch hs ∧
    s.duration = o.mul (o.ofInt (ch 0).ntsteps) (ch 0).hdr.tsamp

theorem scanSeen_stored (o : DOps D) (devOk : Dev → Bool) {C : Conv F D} {s s' : Scan F D Dev P}
    (h : Recorded o devOk C s)
    (hb : ∀ ch hs, ScanStorable o devOk C s ch hs → ScanBack o devOk C s ch hs s') :
    ∃ v, scanSeen o devOk s = .ok v ∧ scanSeen o devOk s' = .ok (storedScan C v) := by
  obtain ⟨ch, hs, h1, h2⟩ := h
  have hb := hb ch hs h1
  have hh := Scan.C33_scan_hits_partial o devOk s ch h1.reads
    (fun i a b => Or.inl ⟨_, (h1.channels i a b).hits⟩)
  have he : (List.range s.num.toNat).flatMap (fun (j : Nat) => Scan.contribution (ch j)) =
      (List.range s.num.toNat).flatMap (fun (j : Nat) => hs j) := by
    apply List.flatMap_congr
    intro j hj
    rw [List.mem_range] at hj
    unfold Scan.contribution
    rw [(h1.channels j (by omega) (by omega)).hits]
  refine ⟨⟨s.hdr.tstart, s.duration, (List.range s.num.toNat).flatMap (fun (j : Nat) => hs j)⟩, ?_, ?_⟩
  · unfold scanSeen; rw [hh, he]; rfl
  · unfold scanSeen storedScan
    rw [hb.hits, hb.tstart, hb.duration, h2, List.map_flatMap]
    rfl

/-- **C143 (part): what the search sees of a file.** A cadence whose scans are all in memory and can be
stored is written and read back. The search then sees the same targets and scans, with the same start
times and durations, and every hit as its record gives it. -/
theorem C143_read_back (o : DOps D) (devOk : Dev → Bool) {C : Conv F D} (hC : C.Ints)
    (j : Junk) (noData : P) (cpu dflt : Dev) (hcpu : devOk cpu = true)
    {fr : Framing (List (List (ScanMsg F D)))} (before : List UInt8) (c : Cadence F D Dev P)
    (hfr : fr.LawfulOn fun m => toCadenceMsg o devOk C c = .ok m)
    (h : ∀ t ∈ c.targets, ∀ s ∈ t.scans, Recorded o devOk C s) :
    ∃ bytes c' v, writeFile fr (toCadenceMsg o devOk C c) before = (bytes, .ok ()) ∧
      readFile fr (ofCadenceMsg o C j noData cpu dflt) bytes = .ok c' ∧
      cadenceSeen o devOk c = .ok v ∧
      cadenceSeen o devOk c' = .ok (v.map (List.map (storedScan C))) := by
  obtain ⟨bytes, c', h1, h2, h3⟩ := Cadence.C38_cadence_partial o devOk hC j noData cpu dflt hcpu before
    c hfr (fun t ht s hs => by obtain ⟨ch, hh, h1, -⟩ := h t ht s hs; exact ⟨ch, hh, h1⟩)
  have two : ∀ {A B : Type} {f g : A → Outcome B} {φ : B → B} {l l' : List A},
      List.Forall₂ (fun a a' => ∃ v, f a = .ok v ∧ f a' = .ok (φ v)) l l' →
      ∃ vs, mapAll f l = .ok vs ∧ mapAll f l' = .ok (vs.map φ) := by
    intro A B f g φ l l' hl
    induction hl with
    | nil => exact ⟨[], rfl, rfl⟩
    | cons ha _ ih =>
      obtain ⟨v, e1, e2⟩ := ha
      obtain ⟨vs, e3, e4⟩ := ih
      exact ⟨v :: vs, by simp only [mapAll, e1, e3, Outcome.bind_ok, Outcome.pure_eq],
        by simp only [mapAll, e2, e4, Outcome.bind_ok, Outcome.pure_eq, List.map_cons]⟩
  have hall : List.Forall₂ (fun t t' : Cadence.Target F D Dev P => ∃ v, mapAll (scanSeen o devOk) t.scans = .ok v ∧
      mapAll (scanSeen o devOk) t'.scans = .ok (v.map (storedScan C))) c.targets c'.targets := by
    have step : ∀ t ∈ c.targets, ∀ t' : Cadence.Target F D Dev P, List.Forall₂
        (fun s s' => ∀ ch hs, ScanStorable o devOk C s ch hs → ScanBack o devOk C s ch hs s')
        t.scans t'.scans → ∃ v, mapAll (scanSeen o devOk) t.scans = .ok v ∧
      mapAll (scanSeen o devOk) t'.scans = .ok (v.map (storedScan C)) := by
      intro t ht t' hss
      refine two (g := scanSeen o devOk) ?_
      have : ∀ s ∈ t.scans, Recorded o devOk C s := h t ht
      generalize t.scans = ss at this hss
      generalize t'.scans = ss' at hss
      clear ht
      induction hss with
      | nil => exact .nil
      | cons hs _ ih =>
        exact .cons (scanSeen_stored o devOk (this _ List.mem_cons_self) hs)
          (ih (fun s hs => this s (List.mem_cons_of_mem _ hs)))
    clear h h1 h2 hfr
    generalize c.targets = ts at h3 step
    generalize c'.targets = ts' at h3
    induction h3 with
    | nil => exact .nil
    | cons ht _ ih =>
      exact .cons (step _ List.mem_cons_self _ ht) (ih (fun t ht => step t (List.mem_cons_of_mem _ ht)))
  obtain ⟨v, e1, e2⟩ := two (g := fun t => mapAll (scanSeen o devOk) t.scans) hall
  exact ⟨bytes, c', v, h1, h2, e1, e2⟩

/-! ## Hits that a record holds exactly -/

/-- A hit without its coarse channel and its flag counts. -/
def bare (h : Hit F D) : Hit F D := { h with rfi := [], coarseChannel := 0 }

/-- The record of the hit holds its numbers exactly. -/
structure Exactly (C : Conv F D) (h : Hit F D) : Prop where
  index : File.Fits32 h.startFreqIndex
  rate : File.Fits32 h.rateIndex
  span : File.Fits32 h.timeSpan
  power : C.Narrow h.power
  start : C.Narrow h.startTime
  duration : C.Narrow h.duration

/-- An event with the coarse channels and flag counts of its hits left out. -/
def eventBare (e : Event F D) : Event F D := { e with hits := e.hits.map bare }

/-- **C143 (part): hits that a record holds exactly.** When every start time, duration and power is a
`float`, the search of the cadence that was read back gives the same events, up to the coarse channels
and flag counts of their hits. -/
theorem C143_exact_partial (o : EvOps F D) {oF : FOrd F} {oD : FOrd D} (hF : oF.Lawful)
    (hD : oD.Lawful) (tF : oF.Total) (tD : oD.Total) (hcong : Congr o oF oD)
    (m : OrdMap (Pair F D) F) (hm : m.Sound (comp oF oD))
    (hbig : o.ltF o.fltMax o.fifty = false) (C : Conv F D)
    (on : List (ScanHits F D)) (offs : List (List (ScanHits F D)))
    (hsteady : Steady o oD on offs)
    (hst : ∀ a ∈ hitsOf (on :: offs), Exactly C a) :
    ∃ es, eventSearch o m (on :: offs) = .ok es ∧
      eventSearch o m ((on :: offs).map (List.map (storedScan C))) = .ok (es.map eventBare) := by
  obtain ⟨ts, -, h1, h2⟩ := eventSearch_via (g := bare) o hF hD tF tD hcong m hm hbig
    (fun _ _ => rfl) (fun sc => { sc with hits := sc.hits.map bare }) (fun _ => rfl) (fun _ _ => rfl) on
    offs hsteady
  refine ⟨_, h1, ?_⟩
  have hsc : (on :: offs).map (List.map (storedScan C)) =
      viaAll (fun sc : ScanHits F D => { sc with hits := sc.hits.map bare }) (on :: offs) := by
    apply List.map_congr_left
    intro t ht
    apply List.map_congr_left
    intro sc hsc
    unfold storedScan
    congr 1
    apply List.map_congr_left
    intro x hx
    obtain ⟨e1, e2, e3, e4, e5, e6⟩ :=
      hst x (List.mem_flatMap.2 ⟨sc, List.mem_flatten.2 ⟨t, ht, hsc⟩, hx⟩)
    unfold stored
    rw [(File.wrap32_eq_iff _).2 e1, (File.wrap32_eq_iff _).2 e2, (File.wrap32_eq_iff _).2 e3, e4, e5, e6]
    rfl
  rw [hsc, h2, List.map_map]
  congr 1
  apply List.map_congr_left
  intro t _
  obtain ⟨sc, x, ev⟩ := t
  simp only [Function.comp, Origin.via, Origin.event, mkEvent, eventBare, List.length_map]
  rw [foldl_map_congr _ bare (fun _ _ => rfl), foldl_map_congr _ bare (fun _ _ => rfl),
    foldl_map_congr _ bare (fun _ _ => rfl), foldl_map_congr _ bare (fun _ _ => rfl)]
  rfl

/-! ## A drifting signal -/

/-- Conversions between rationals that stand for doubles and those that stand for floats. -/
def fileConv : Conv ℚ ℚ where
  toD := id
  toF := rne 24
  ofInt n := rne 24 n
  toInt x := if |x| < 2 ^ 63 then .ok (if 0 ≤ x then ⌊x⌋ else ⌈x⌉) else .ub

theorem fileConv_ints : fileConv.Ints := by
  intro n hn
  have h1 : rne 24 (n : ℚ) = n := by
    have := Float.rne_exact (p := 24) (by norm_num) n 0 hn
    simpa using this
  have h2 : |(n : ℚ)| < 2 ^ 63 := by
    have h3 : |(n : ℚ)| ≤ 2 ^ 24 := by exact_mod_cast hn
    exact lt_of_le_of_lt h3 (by norm_num)
  simp only [fileConv, h1, h2, if_true]
  split <;> simp

/-- **C143 (part): a drifting signal survives the file.** The start times of a cadence in seconds are
at most 6e9 (the year 2048), so the file moves them by up to 358 s. For a signal as in
`C141_drifting_signal_float_partial`, with room for 358 s of its own drift and of that of the other
hits, which drift by at most `R` Hz/s: the search reports the signal as one event of exactly its hits
both in memory and after the cadence was written and read back. -/
theorem C143_drifting_signal_partial (f r δ ρ R t0 t1 : ℚ) (on : List (ScanHits ℚ ℚ))
    (offs : List (List (ScanHits ℚ ℚ))) (hon : on.length ≤ 1000) (ht : t1 - t0 ≤ 999000)
    (hrange : ∀ a ∈ hitsOf (on :: offs), InRange a ∧ |a.startTime| ≤ 6000000000 ∧ |a.driftRate| ≤ R)
    (hdur : ∀ a ∈ hitsOf (on :: offs), t0 ≤ a.startTime ∧ a.startTime + a.duration ≤ t1)
    (sig : Hit ℚ ℚ → Bool) (hone : ∀ sc ∈ on, (sc.hits.filter sig).length ≤ 1)
    (hsame : ∀ a ∈ hitsOf [on], sig (stored fileConv a) = sig a)
    (hsig : ∀ a ∈ hitsOf [on], sig a = true → Measures f r δ ρ a)
    (hρ : ρ ≤ |r|)
    (hsmall : 1 / 100 * (2 * (δ + 358 * |r|) + 2 * ρ * (t1 - t0 + 718)) +
      10 * (2 * ρ / (1 / 100000000 + 2 * (|r| - ρ) ^ 2)) ^ 2 ≤ 49)
    (hother : ∀ b ∈ hitsOf [on], sig b = false → ∀ t, t0 - 359 ≤ t → t ≤ t1 + 359 →
      5100 + 358 * R + (δ + 358 * |r| + ρ * (t1 - t0 + 718)) ≤ |trackAt b t - (f + r * t)|)
    (hoff : ∀ b ∈ hitsOf offs, ∀ t, t0 - 359 ≤ t → t ≤ t1 + 359 →
      5100 + 358 * R + (δ + 358 * |r| + ρ * (t1 - t0 + 718)) ≤ |trackAt b t - (f + r * t)|)
    (htwo : 2 ≤ (on.flatMap fun sc => sc.hits.filter sig).length) :
    (∃ es, eventSearch ieee exMap (on :: offs) = .ok es ∧
      (es.map Event.hits).filter (fun l => l.any sig) =
        [on.flatMap fun sc => sc.hits.filter sig]) ∧
    ∃ es, eventSearch ieee exMap ((on :: offs).map (List.map (storedScan fileConv))) = .ok es ∧
      (es.map Event.hits).filter (fun l => l.any sig) =
        [(on.flatMap fun sc => sc.hits.filter sig).map (stored fileConv)] := by
  have hsub : ∀ a ∈ hitsOf [on], a ∈ hitsOf (on :: offs) := by
    intro a ha
    obtain ⟨sc, hsc, ha⟩ := List.mem_flatMap.1 ha
    refine List.mem_flatMap.2 ⟨sc, ?_, ha⟩
    simp only [List.flatten_cons, List.flatten_nil, List.append_nil] at hsc
    simp [hsc]
  have hsub' : ∀ a ∈ hitsOf offs, a ∈ hitsOf (on :: offs) := by
    intro a ha
    obtain ⟨sc, hsc, ha⟩ := List.mem_flatMap.1 ha
    refine List.mem_flatMap.2 ⟨sc, ?_, ha⟩
    rw [List.flatten_cons]
    exact List.mem_append_right _ hsc
  -- hits of the stored cadence are stored hits
  have himg : ∀ (ts : List (List (ScanHits ℚ ℚ))) b, b ∈ hitsOf (ts.map (List.map (storedScan fileConv))) →
      ∃ a ∈ hitsOf ts, b = stored fileConv a := by
    intro ts b hb
    obtain ⟨sc, hsc, hb⟩ := List.mem_flatMap.1 hb
    obtain ⟨t, ht, hsc⟩ := List.mem_flatten.1 hsc
    obtain ⟨t', ht', rfl⟩ := List.mem_map.1 ht
    obtain ⟨sc', hsc', rfl⟩ := List.mem_map.1 hsc
    obtain ⟨a, ha, rfl⟩ := List.mem_map.1 hb
    exact ⟨a, List.mem_flatMap.2 ⟨sc', List.mem_flatten.2 ⟨t', ht', hsc'⟩, ha⟩, rfl⟩
  have hst : ∀ a ∈ hitsOf (on :: offs), |rne 24 a.startTime - a.startTime| ≤ 358 := by
    intro a ha
    have h1 := rne24_err a.startTime
    have h2 := (hrange a ha).2.1
    linarith
  have hdu : ∀ a ∈ hitsOf (on :: offs), |rne 24 a.duration - a.duration| ≤ 1 := by
    intro a ha
    have h1 := rne24_err a.duration
    have h2 := (hrange a ha).1.dur
    rw [abs_of_nonneg h2.1] at h1
    linarith
  have hmeas : ∀ a ∈ hitsOf (on :: offs), Measures f r δ ρ a →
      Measures f r (δ + 358 * |r|) ρ a ∧ Measures f r (δ + 358 * |r|) ρ (stored fileConv a) := by
    intro a ha hm
    refine ⟨⟨hm.freq.trans (by linarith [abs_nonneg r]), hm.drift⟩, ?_, hm.drift⟩
    show |a.startFreqMHz * 1000000 - (f + r * rne 24 a.startTime)| ≤ _
    have e : a.startFreqMHz * 1000000 - (f + r * rne 24 a.startTime) =
        (a.startFreqMHz * 1000000 - (f + r * a.startTime)) -
          r * (rne 24 a.startTime - a.startTime) := by ring
    rw [e]
    have h1 := abs_sub (a.startFreqMHz * 1000000 - (f + r * a.startTime))
      (r * (rne 24 a.startTime - a.startTime))
    rw [abs_mul] at h1
    have h2 := mul_le_mul_of_nonneg_left (hst a ha) (abs_nonneg r)
    linarith [hm.freq]
  have htrack : ∀ b ∈ hitsOf (on :: offs), ∀ t,
      |trackAt (stored fileConv b) t - trackAt b t| ≤ 358 * R := by
    intro b hb t
    have e : trackAt (stored fileConv b) t - trackAt b t =
        -(b.driftRate * (rne 24 b.startTime - b.startTime)) := by
      show b.startFreqMHz * 1000000 + b.driftRate * (t - rne 24 b.startTime) -
        (b.startFreqMHz * 1000000 + b.driftRate * (t - b.startTime)) = _
      ring
    rw [e, abs_neg, abs_mul]
    have := mul_le_mul (hrange b hb).2.2 (hst b hb) (abs_nonneg _)
      ((abs_nonneg _).trans (hrange b hb).2.2)
    linarith
  have hR : ∀ b ∈ hitsOf (on :: offs), 0 ≤ R := fun b hb => (abs_nonneg _).trans (hrange b hb).2.2
  have hT : t1 + 359 - (t0 - 359) = t1 - t0 + 718 := by ring
  have hbs : 1 / 100 * (2 * (δ + 358 * |r|) + 2 * ρ * (t1 + 359 - (t0 - 359))) +
      10 * (2 * ρ / (1 / 100000000 + 2 * (|r| - ρ) ^ 2)) ^ 2 ≤ 49 := by rw [hT]; exact hsmall
  constructor
  · refine C141_drifting_signal_float_partial f r (δ + 358 * |r|) ρ (t0 - 359) (t1 + 359) on offs hon
      (by linarith) (fun a ha => (hrange a ha).1) ?_ sig hone ?_ hρ hbs ?_ ?_ htwo
    · intro a ha
      obtain ⟨h1, h2⟩ := hdur a ha
      constructor <;> linarith
    · intro a ha sa
      exact (hmeas a (hsub a ha) (hsig a ha sa)).1
    · intro b hb sb t h0 h1
      have := hother b hb sb t h0 h1
      have := hR b (hsub b hb)
      rw [hT]; linarith
    · intro b hb t h0 h1
      have := hoff b hb t h0 h1
      have := hR b (hsub' b hb)
      rw [hT]; linarith
  · have hfil : ∀ sc ∈ on, (storedScan fileConv sc).hits.filter sig =
        (sc.hits.filter sig).map (stored fileConv) := by
      intro sc hsc
      show (sc.hits.map (stored fileConv)).filter sig = _
      rw [List.filter_map]
      congr 1
      apply List.filter_congr
      intro a ha
      exact hsame a (List.mem_flatMap.2 ⟨sc, by simpa using hsc, ha⟩)
    have hS : ((on.map (storedScan fileConv)).flatMap fun sc => sc.hits.filter sig) =
        (on.flatMap fun sc => sc.hits.filter sig).map (stored fileConv) := by
      rw [List.map_flatMap, List.flatMap_map]
      apply List.flatMap_congr
      intro sc hsc
      exact hfil sc hsc
    have hsig' : ∀ a ∈ hitsOf [on], sig (stored fileConv a) = sig a := hsame
    rw [← hS]
    refine C141_drifting_signal_float_partial f r (δ + 358 * |r|) ρ (t0 - 359) (t1 + 359)
      (on.map (storedScan fileConv)) (offs.map (List.map (storedScan fileConv))) (by simpa using hon)
      (by linarith) ?_ ?_ sig ?_ ?_ hρ hbs ?_ ?_ (by rw [hS]; simpa using htwo)
    · intro b hb
      obtain ⟨a, ha, rfl⟩ := himg (on :: offs) b hb
      have i := (hrange a ha).1
      have h1 := abs_le.1 (hst a ha)
      have h2 := abs_le.1 (hdu a ha)
      have h3 := abs_le.1 (hrange a ha).2.1
      obtain ⟨h4, h5⟩ := hdur a ha
      exact ⟨i.freq, by
        show |rne 24 a.startTime| ≤ _
        rw [abs_le]; constructor <;> linarith [h1.1, h1.2, h3.1, h3.2],
        ⟨Float.rne_nonneg (by norm_num) i.dur.1, by
          show rne 24 a.duration ≤ _
          linarith [h2.2]⟩, i.drift⟩
    · intro b hb
      obtain ⟨a, ha, rfl⟩ := himg (on :: offs) b hb
      have h1 := abs_le.1 (hst a ha)
      have h2 := abs_le.1 (hdu a ha)
      obtain ⟨h4, h5⟩ := hdur a ha
      show t0 - 359 ≤ rne 24 a.startTime ∧ rne 24 a.startTime + rne 24 a.duration ≤ t1 + 359
      constructor <;> linarith [h1.1, h1.2, h2.1, h2.2]
    · intro sc hsc
      obtain ⟨sc', hsc', rfl⟩ := List.mem_map.1 hsc
      rw [hfil sc' hsc', List.length_map]
      exact hone sc' hsc'
    · intro b hb sb
      obtain ⟨a, ha, rfl⟩ := himg [on] b hb
      rw [hsame a ha] at sb
      exact (hmeas a (hsub a ha) (hsig a ha sb)).2
    · intro b hb sb t h0 h1
      obtain ⟨a, ha, rfl⟩ := himg [on] b hb
      rw [hsame a ha] at sb
      have e1 := hother a ha sb t h0 h1
      have e2 := htrack a (hsub a ha) t
      have e3 := abs_sub_le (trackAt a t) (trackAt (stored fileConv a) t) (f + r * t)
      rw [abs_sub_comm (trackAt a t) (trackAt (stored fileConv a) t)] at e3
      rw [hT]; linarith
    · intro b hb t h0 h1
      obtain ⟨a, ha, rfl⟩ := himg offs b hb
      have e1 := hoff a ha t h0 h1
      have e2 := htrack a (hsub' a ha) t
      have e3 := abs_sub_le (trackAt a t) (trackAt (stored fileConv a) t) (f + r * t)
      rw [abs_sub_comm (trackAt a t) (trackAt (stored fileConv a) t)] at e3
      rw [hT]; linarith

/-! ## What the file does to start times -/

/-- **C143 fails: start times are stored to a multiple of 512 s.** Every start time from 1995 to 2131 is
changed to a multiple of 512 s in the file, so scans of five minutes that follow one another can come
back with the same start time, or 512 or 1024 s apart. -/
theorem C143_start_time_grid (h : Hit ℚ ℚ) (h0 : 2 ^ 32 ≤ h.startTime) (h1 : h.startTime < 2 ^ 33) :
    ∃ n : ℤ, (stored fileConv h).startTime = 512 * n := by
  show ∃ n : ℤ, rne 24 h.startTime = 512 * n
  generalize h.startTime = x at h0 h1
  have hx : x ≠ 0 := by intro e; rw [e] at h0; norm_num at h0
  have he : Float.expo x = 32 := by
    refine Float.expo_eq ?_ ?_
    · rw [abs_of_nonneg (by linarith [show (0 : ℚ) ≤ 2 ^ 32 by norm_num])]
      exact_mod_cast h0
    · rw [abs_of_nonneg (by linarith [show (0 : ℚ) ≤ 2 ^ 32 by norm_num])]
      calc x < 2 ^ 33 := h1
        _ = 2 ^ ((32 : ℤ) + 1) := by norm_num
  have hu : Float.ulp 24 x = 512 := by
    unfold Float.ulp; rw [he]; norm_num
  unfold rne
  rw [if_neg hx, hu]
  exact ⟨_, mul_comm _ _⟩

/-- Two scans of five minutes, 300 and 1270 s after the start of MJD 59000, that see a signal which
drifts by 12 Hz/s. -/
def fastOn : List (ScanHits ℚ ℚ) :=
  [⟨59000, 300, [exHit 8400 5097600300 300 12 20]⟩,
   ⟨59000, 300, [exHit (8400 + 1164 / 100000) 5097601270 300 12 20]⟩]

/-- **C143 fails: a fast signal is lost in the file.** Both hits lie exactly on one line, and the search in
memory reports them as one event. After the cadence was written and read back no event is found. -/
theorem C143_event_lost :
    (∀ h ∈ hitsOf [fastOn], Measures (8400000000 - 12 * 5097600300) 12 0 0 h) ∧
    (∃ e, eventSearch ieee exMap [fastOn] = .ok [e] ∧ e.hits = hitsOf [fastOn]) ∧
    eventSearch ieee exMap ([fastOn].map (List.map (storedScan fileConv))) = .ok [] := by
  refine ⟨?_, ?_, ?_⟩
  · intro h hh
    have : hitsOf [fastOn] = [exHit 8400 5097600300 300 12 20,
      exHit (8400 + 1164 / 100000) 5097601270 300 12 20] := rfl
    rw [this] at hh
    simp only [List.mem_cons, List.not_mem_nil, or_false] at hh
    rcases hh with rfl | rfl
    · exact ⟨by decide +kernel, by decide +kernel⟩
    · exact ⟨by decide +kernel, by decide +kernel⟩
  · have h : (eventSearch ieee exMap [fastOn]).bind (fun l => .ok (l.map Event.hits)) =
        .ok [hitsOf [fastOn]] := by decide +kernel
    cases he : eventSearch ieee exMap [fastOn] with
    | throws e => rw [he] at h; cases h
    | ub => rw [he] at h; cases h
    | ok l =>
      rw [he] at h
      have h2 : l.map Event.hits = [hitsOf [fastOn]] := Outcome.ok.inj h
      cases l with
      | nil => cases h2
      | cons e l =>
        rw [List.map_cons] at h2
        obtain ⟨h3, h4⟩ := List.cons.inj h2
        rw [List.map_eq_nil_iff.1 h4]
        exact ⟨e, rfl, h3⟩
  · decide +kernel

/-! ## Concrete cases -/

/-- A signal that drifts by 1/2 Hz/s, in three scans of MJD 59000 with an OFF scan between them, and
another signal 1 MHz above it. -/
def recOn : List (ScanHits ℚ ℚ) :=
  [⟨59000, 300, [exHit 8401 5097600300 300 0 9, exHit 8400 5097600300 300 (1 / 2) 20]⟩,
   ⟨59000, 300, [exHit (8400 + 3 / 10000) 5097600900 300 (1 / 2) 22]⟩,
   ⟨59000, 300, [exHit (8400 + 6 / 10000) 5097601500 300 (1 / 2) 21, exHit 8401 5097601500 300 0 9]⟩]

def recOff : List (List (ScanHits ℚ ℚ)) := [[⟨59000, 300, [exHit 8401 5097600600 300 0 9]⟩]]

def recSig (h : Hit ℚ ℚ) : Bool := decide (h.startFreqMHz < 84005 / 10)

/-- The cadence meets the hypotheses of `C143_drifting_signal_partial`. -/
example : (∃ es, eventSearch ieee exMap (recOn :: recOff) = .ok es ∧
      (es.map Event.hits).filter (fun l => l.any recSig) =
        [recOn.flatMap fun sc => sc.hits.filter recSig]) ∧
    ∃ es, eventSearch ieee exMap ((recOn :: recOff).map (List.map (storedScan fileConv))) = .ok es ∧
      (es.map Event.hits).filter (fun l => l.any recSig) =
        [(recOn.flatMap fun sc => sc.hits.filter recSig).map (stored fileConv)] := by
  have hH : hitsOf [recOn] = [exHit 8401 5097600300 300 0 9, exHit 8400 5097600300 300 (1 / 2) 20,
      exHit (8400 + 3 / 10000) 5097600900 300 (1 / 2) 22,
      exHit (8400 + 6 / 10000) 5097601500 300 (1 / 2) 21, exHit 8401 5097601500 300 0 9] := rfl
  have hO : hitsOf recOff = [exHit 8401 5097600600 300 0 9] := rfl
  have hall : hitsOf (recOn :: recOff) = [exHit 8401 5097600300 300 0 9,
      exHit 8400 5097600300 300 (1 / 2) 20, exHit (8400 + 3 / 10000) 5097600900 300 (1 / 2) 22,
      exHit (8400 + 6 / 10000) 5097601500 300 (1 / 2) 21, exHit 8401 5097601500 300 0 9,
      exHit 8401 5097600600 300 0 9] := rfl
  have hfar : ∀ st len t : ℚ, 5097600300 - 359 ≤ t → t ≤ 5097601800 + 359 →
      5100 + 358 * 1 + (25 + 358 * |(1 / 2 : ℚ)| + 1 / 20 * (5097601800 - 5097600300 + 718)) ≤
        |trackAt (exHit 8401 st len 0 9) t - (8400000000 - 1 / 2 * 5097600300 + 1 / 2 * t)| := by
    intro st len t h0 h1
    have : trackAt (exHit 8401 st len 0 9) t = 8401000000 := by
      show (8401 : ℚ) * 1000000 + 0 * (t - st) = _; ring
    rw [this, abs_of_nonneg (a := (1 / 2 : ℚ)) (by norm_num), abs_of_nonneg (by linarith)]; linarith
  refine C143_drifting_signal_partial (8400000000 - 1 / 2 * 5097600300) (1 / 2) 25 (1 / 20) 1 5097600300 5097601800
    recOn recOff (by decide) (by norm_num) ?_ (by decide +kernel) recSig (by decide +kernel)
    (by decide +kernel) ?_ (by decide +kernel) (by decide +kernel) ?_ ?_ (by decide +kernel)
  · intro a ha
    rw [hall] at ha
    simp only [List.mem_cons, List.not_mem_nil, or_false] at ha
    rcases ha with rfl | rfl | rfl | rfl | rfl | rfl <;>
      exact ⟨⟨by decide +kernel, by decide +kernel, by decide +kernel, by decide +kernel⟩,
        by decide +kernel, by decide +kernel⟩
  · intro a ha hs
    rw [hH] at ha
    simp only [List.mem_cons, List.not_mem_nil, or_false] at ha
    rcases ha with rfl | rfl | rfl | rfl | rfl
    · exact absurd hs (by decide +kernel)
    · exact ⟨by decide +kernel, by decide +kernel⟩
    · exact ⟨by decide +kernel, by decide +kernel⟩
    · exact ⟨by decide +kernel, by decide +kernel⟩
    · exact absurd hs (by decide +kernel)
  · intro a ha hs t h0 h1
    rw [hH] at ha
    simp only [List.mem_cons, List.not_mem_nil, or_false] at ha
    rcases ha with rfl | rfl | rfl | rfl | rfl
    · exact hfar _ 300 t h0 h1
    · exact absurd hs (by decide +kernel)
    · exact absurd hs (by decide +kernel)
    · exact absurd hs (by decide +kernel)
    · exact hfar _ 300 t h0 h1
  · intro a ha t h0 h1
    rw [hO] at ha
    rw [List.mem_singleton.1 ha]
    exact hfar _ 300 t h0 h1

/-- Scans that start on the grid of the file. -/
def gridOn : List (ScanHits ℚ ℚ) :=
  [⟨59000, 300, [exHit 8400 5097600000 300 12 20, exHit 8402 5097600000 300 1 20]⟩,
   ⟨59000, 300, [exHit (8400 + 12288 / 1000000) 5097601024 300 12 20]⟩]

example : ∃ es, eventSearch ideal exMap [gridOn] = .ok es ∧
    eventSearch ideal exMap ([gridOn].map (List.map (storedScan fileConv))) =
      .ok (es.map eventBare) := by
  have hd : ∀ a ∈ hitsOf [gridOn], a.duration = 300 := by decide +kernel
  have hH : hitsOf [gridOn] = [exHit 8400 5097600000 300 12 20, exHit 8402 5097600000 300 1 20,
    exHit (8400 + 12288 / 1000000) 5097601024 300 12 20] := rfl
  refine C143_exact_partial ideal ratOrd_lawful ratOrd_lawful ratOrd_total ratOrd_total ideal_congr exMap
    (listMap_sound _) ideal_lt.big fileConv gridOn []
    (steady_of_duration hd) ?_
  intro a ha
  rw [hH] at ha
  simp only [List.mem_cons, List.not_mem_nil, or_false] at ha
  rcases ha with rfl | rfl | rfl <;>
    exact ⟨by unfold File.Fits32; decide +kernel, by unfold File.Fits32; decide +kernel,
      by unfold File.Fits32; decide +kernel, by unfold Conv.Narrow; decide +kernel,
      by unfold Conv.Narrow; decide +kernel, by unfold Conv.Narrow; decide +kernel⟩

/-- A cadence of two targets that see the same scan, for `C143_read_back`. -/
def exRecorded : Cadence File.Float32 ℚ Bool Unit :=
  ⟨[⟨[Cadence.exStored, Cadence.exStored], "ON", true⟩, ⟨[Cadence.exStored], "OFF", true⟩], true⟩

example : ∃ (m : List (List (ScanMsg File.Float32 ℚ))) (bytes : List UInt8)
    (c' : Cadence File.Float32 ℚ Bool Unit) (v : List (List (ScanHits File.Float32 ℚ))),
    writeFile (Cadence.oneMessage m) (toCadenceMsg Scan.ratOps id File.exConv exRecorded) [] =
        (bytes, .ok ()) ∧
      readFile (Cadence.oneMessage m)
        (ofCadenceMsg Scan.ratOps File.exConv ⟨0, 0, 0, 0⟩ () true true) bytes = .ok c' ∧
      cadenceSeen Scan.ratOps id exRecorded = .ok v ∧
      cadenceSeen Scan.ratOps id c' = .ok (v.map (List.map (storedScan File.exConv))) := by
  have hr : ∀ t ∈ exRecorded.targets, ∀ s ∈ t.scans, Recorded Scan.ratOps id File.exConv s := by
    intro t ht s hs
    have : s = Cadence.exStored := by
      simp only [exRecorded, List.mem_cons, List.not_mem_nil, or_false] at ht
      rcases ht with rfl | rfl <;> simpa using hs
    rw [this]
    exact ⟨_, _, Cadence.exStored_storable, by decide +kernel⟩
  obtain ⟨m, hm⟩ : ∃ m, toCadenceMsg Scan.ratOps id File.exConv exRecorded = .ok m := ⟨_, rfl⟩
  refine ⟨m, C143_read_back Scan.ratOps id File.exConv_lawful.int _ () true true rfl [] exRecorded ?_ hr⟩
  have := Cadence.oneMessage_lawful m
  refine ⟨fun m' h => this.nonempty m' (Outcome.ok.inj (hm.symm.trans h)).symm,
    fun m' h => this.decode m' (Outcome.ok.inj (hm.symm.trans h)).symm,
    fun m' h => this.truncated m' (Outcome.ok.inj (hm.symm.trans h)).symm, this.empty⟩

end Bliss.Event
