import Verif.Cadence.Props
import Verif.File.Props

/-!
# Properties of scan, target and cadence files (C38, C70)
-/

namespace Bliss.Cadence

open Bliss.Hit (Hit)
open Bliss.Scan Bliss.File

variable {F D Dev P : Type}

/-! ## Specification -/

/-- The metadata that a message stores is present and in range. -/
structure MdStorable (h : Header D) (ntsteps nchans : Int) : Prop where
  dec : h.srcDej.isSome
  ra : h.srcRaj.isSome
  tid : ∃ t, h.telescopeId = some t ∧ Fits32 t
  steps : Fits32 ntsteps
  chans : Fits32 nchans

/-- A channel with hits `hs` that a message can store. -/
structure ChannelStorable (C : Conv F D) (c : Channel F D Dev P) (hs : List (Hit F D)) : Prop where
  md : MdStorable c.hdr c.ntsteps c.nchans
  hits : c.getHits = .ok hs
  each : ∀ h ∈ hs, |h.binwidth| ≤ 2 ^ 24

/-- Two channels have the same stored metadata. -/
structure SameMd (c c' : Channel F D Dev P) : Prop where
  fch1 : c'.fch1 = c.fch1
  foff : c'.hdr.foff = c.hdr.foff
  name : c'.hdr.sourceName = c.hdr.sourceName
  dec : c'.hdr.srcDej = c.hdr.srcDej
  ra : c'.hdr.srcRaj = c.hdr.srcRaj
  tid : c'.hdr.telescopeId = c.hdr.telescopeId
  tsamp : c'.hdr.tsamp = c.hdr.tsamp
  tstart : c'.hdr.tstart = c.hdr.tstart
  nchans : c'.nchans = c.nchans
  ntsteps : c'.ntsteps = c.ntsteps

/-! ## Channels -/

theorem toMd_ok {h : Header D} {fch1 : D} {n m : Int} (hs : MdStorable h n m) :
    ∃ dec ra tid, h.srcDej = some dec ∧ h.srcRaj = some ra ∧ h.telescopeId = some tid ∧
      toMd fch1 h n m =
        .ok ⟨h.sourceName, fch1, h.foff, h.tstart, h.tsamp, ra, dec, tid, n, m⟩ := by
  obtain ⟨h1, h2, ⟨tid, h3, hf⟩, h4, h5⟩ := hs
  obtain ⟨dec, hd⟩ := Option.isSome_iff_exists.1 h1
  obtain ⟨ra, hr⟩ := Option.isSome_iff_exists.1 h2
  refine ⟨dec, ra, tid, hd, hr, h3, ?_⟩
  unfold toMd
  simp only [hd, hr, h3, value, Outcome.bind_ok, Outcome.pure_eq, (wrap32_eq_iff _).2 hf,
    (wrap32_eq_iff _).2 h4, (wrap32_eq_iff _).2 h5]

theorem hits_back {C : Conv F D} (hC : C.Ints) (hs : List (Hit F D))
    (h : ∀ x ∈ hs, |x.binwidth| ≤ 2 ^ 24) :
    mapAll (ofSignal C) (hs.map (toSignal C)) = .ok (hs.map (stored C)) := by
  induction hs with
  | nil => rfl
  | cons x hs ih =>
    have hx := h x (by simp)
    simp only [List.map_cons, mapAll]
    rw [C37_returned hC x hx, ih (fun y hy => h y (by simp [hy]))]
    rfl

/-- The channel that comes back for `c` with hits `hs` and the optional metadata given. -/
def returned (o : DOps D) (C : Conv F D) (noData : P) (cpu : Dev) (c : Channel F D Dev P) (hs : List (Hit F D)) :
    Channel F D Dev P :=
  { fch1 := c.fch1
    hdr := { foff := c.hdr.foff, machineId := some 0, nbits := 32, nifs := 0
             sourceName := c.hdr.sourceName, srcDej := c.hdr.srcDej, srcRaj := c.hdr.srcRaj
             telescopeId := c.hdr.telescopeId, tsamp := c.hdr.tsamp, tstart := c.hdr.tstart
             dataType := 1, azStart := some (o.ofInt 0), zaStart := some (o.ofInt 0) }
    nchans := c.nchans
    ntsteps := c.ntsteps
    number := 0
    data := .other noData
    device := cpu
    hits := some (.ok (hs.map (stored C))) }

theorem channel_back (o : DOps D) {C : Conv F D} (hC : C.Ints) (noData : P) (cpu : Dev)
    (c : Channel F D Dev P) (hs : List (Hit F D)) (h : ChannelStorable C c hs) :
    ∃ m, toChannelMsg C c = .ok m ∧ ofChannelMsg o C noData cpu m = .ok (returned o C noData cpu c hs) := by
  obtain ⟨dec, ra, tid, h1, h2, h3, h4⟩ := toMd_ok (fch1 := c.fch1) h.md
  refine ⟨⟨⟨c.hdr.sourceName, c.fch1, c.hdr.foff, c.hdr.tstart, c.hdr.tsamp, ra, dec, tid,
    c.ntsteps, c.nchans⟩, hs.map (toSignal C)⟩, ?_, ?_⟩
  · unfold toChannelMsg
    simp only [h4, h.hits, Outcome.bind_ok, Outcome.pure_eq]
  · unfold ofChannelMsg returned
    simp only [hits_back hC hs h.each, Outcome.bind_ok, Outcome.pure_eq, h1, h2, h3]

theorem returned_md (o : DOps D) (C : Conv F D) (noData : P) (cpu : Dev) (c : Channel F D Dev P)
    (hs : List (Hit F D)) : SameMd c (returned o C noData cpu c hs) :=
  ⟨rfl, rfl, rfl, rfl, rfl, rfl, rfl, rfl, rfl, rfl⟩

/-- **C38 (part): one channel.** The stored metadata and the hits of a channel come back, in order. -/
theorem C38_channel_partial (o : DOps D) {C : Conv F D} (hC : C.Ints) (noData : P) (cpu : Dev)
    (c : Channel F D Dev P) (hs : List (Hit F D)) (h : ChannelStorable C c hs) :
    ∃ m c', toChannelMsg C c = .ok m ∧ ofChannelMsg o C noData cpu m = .ok c' ∧ SameMd c c' ∧
      c'.getHits = .ok (hs.map (stored C)) := by
  obtain ⟨m, h1, h2⟩ := channel_back o hC noData cpu c hs h
  exact ⟨m, _, h1, h2, returned_md o C noData cpu c hs, rfl⟩

/-! ## Scans -/

theorem peek_view (o : DOps D) (devOk : Dev → Bool) (s : Scan F D Dev P) (i : Int)
    (h : (s.cache (i + s.offset)).isSome) :
    (peek devOk s i).2 = (view o devOk s i).bind (fun c => .ok (some c)) := by
  obtain ⟨c, hc⟩ := Option.isSome_iff_exists.1 h
  unfold peek view base
  by_cases hi : i < 0 ∨ i > s.num
  · rw [if_pos hi, if_pos hi]; rfl
  · rw [if_neg hi, if_neg hi, hc]
    simp only [finish_snd, Outcome.bind_ok]

theorem peek_keys (devOk : Dev → Bool) (s : Scan F D Dev P) (i k : Int)
    (h : (s.cache k).isSome) : ((peek devOk s i).1.cache k).isSome := by
  unfold peek
  by_cases hi : i < 0 ∨ i > s.num
  · rw [if_pos hi]; exact h
  · rw [if_neg hi]
    cases hc : s.cache (i + s.offset) with
    | none => exact h
    | some c =>
      simp only []
      unfold finish
      cases Channel.setDevice devOk s.device c with
      | ub => exact h
      | throws e => simp only []; split <;> simp [h]
      | ok c' => simp only []; split <;> simp [h]

theorem channelMsgs_ok (o : DOps D) (devOk : Dev → Bool) {C : Conv F D} (hC : C.Ints) (noData : P)
    (cpu : Dev) (s0 : Scan F D Dev P) (ch : Int → Channel F D Dev P) (hs : Int → List (Hit F D))
    (k : Nat) (i : Int) (s : Scan F D Dev P) (hsame : SameView o devOk s0 s)
    (hmem : ∀ j, i ≤ j → j < i + k → (s.cache (j + s.offset)).isSome)
    (hread : ∀ j, i ≤ j → j < i + k → (read o devOk s0 j).2 = .ok (ch j))
    (hst : ∀ j, i ≤ j → j < i + k → ChannelStorable C (ch j) (hs j)) :
    ∃ ms, channelMsgs o devOk C k i s = .ok ms ∧
      mapAll (ofChannelMsg o C noData cpu) ms =
        .ok ((List.range k).map (fun (n : Nat) => returned o C noData cpu (ch (i + n)) (hs (i + n)))) := by
  induction k generalizing i s with
  | zero => exact ⟨[], rfl, rfl⟩
  | succ k ih =>
    have hp : (peek devOk s i).2 = .ok (some (ch i)) := by
      rw [peek_view o devOk s i (hmem i (by omega) (by push_cast; omega)), hsame.view_eq,
        ← read_view, hread i (by omega) (by push_cast; omega)]
      rfl
    have hsame' := hsame.trans (peek_same (o := o) (devOk := devOk) s i)
    have hoff : (peek devOk s i).1.offset = s.offset := by
      rw [(peek_same (o := o) (devOk := devOk) s i).frame]
    obtain ⟨ms, h1, h2⟩ := ih (i + 1) (peek devOk s i).1 hsame'
      (fun j h1 h2 => by
        rw [hoff]
        exact peek_keys devOk s i _ (hmem j (by omega) (by push_cast; omega)))
      (fun j h1 h2 => hread j (by omega) (by push_cast; omega))
      (fun j h1 h2 => hst j (by omega) (by push_cast; omega))
    obtain ⟨m, hm1, hm2⟩ := channel_back o hC noData cpu (ch i) (hs i)
      (hst i (by omega) (by push_cast; omega))
    refine ⟨m :: ms, ?_, ?_⟩
    · unfold channelMsgs
      cases hx : peek devOk s i with
      | mk s' r =>
        rw [hx] at hp h1
        simp only [] at hp h1
        subst hp
        simp only [hm1, h1, Outcome.bind_ok, Outcome.pure_eq]
    · simp only [mapAll, hm2, h2, Outcome.bind_ok, Outcome.pure_eq, List.range_succ_eq_map,
        List.map_cons, List.map_map, Int.natCast_zero, Int.add_zero, Outcome.ok.injEq,
        List.cons.injEq, true_and]
      apply List.map_congr_left
      intro n _
      simp only [Function.comp_apply, Nat.succ_eq_add_one]
      have e : i + 1 + (n : Int) = i + ((n + 1 : Nat) : Int) := by push_cast; omega
      rw [e]

/-- A scan that a file can store completely: every channel is in memory, can be read, and can be
stored with its hits `hs i`. -/
structure ScanStorable (o : DOps D) (devOk : Dev → Bool) (C : Conv F D) (s : Scan F D Dev P)
    (ch : Int → Channel F D Dev P) (hs : Int → List (Hit F D)) : Prop where
  some : 0 < s.num
  md : MdStorable s.hdr s.ntsteps s.nchans
  memory : ∀ i, 0 ≤ i → i < s.num → (s.cache (i + s.offset)).isSome
  reads : ∀ i, 0 ≤ i → i < s.num → (read o devOk s i).2 = .ok (ch i)
  channels : ∀ i, 0 ≤ i → i < s.num → ChannelStorable C (ch i) (hs i)

/-- What a user sees of a scan that was read back: the metadata that was stored for the scan, and
for every channel its stored metadata and its hits. -/
structure ScanBack (o : DOps D) (devOk : Dev → Bool) (C : Conv F D) (s : Scan F D Dev P)
    (ch : Int → Channel F D Dev P) (hs : Int → List (Hit F D)) (s' : Scan F D Dev P) : Prop where
  num : s'.num = s.num
  fch1 : s'.fch1 = s.fch1
  foff : s'.hdr.foff = s.hdr.foff
  name : s'.hdr.sourceName = s.hdr.sourceName
  dec : s'.hdr.srcDej = s.hdr.srcDej
  ra : s'.hdr.srcRaj = s.hdr.srcRaj
  tsamp : s'.hdr.tsamp = s.hdr.tsamp
  tstart : s'.hdr.tstart = s.hdr.tstart
  nchans : s'.nchans = (ch 0).nchans * s.num
  ntsteps : s'.ntsteps = (ch 0).ntsteps
  duration : s'.duration = o.mul (o.ofInt (ch 0).ntsteps) (ch 0).hdr.tsamp
  channels : ∀ i, 0 ≤ i → i < s.num → ∃ c', (read o devOk s' i).2 = .ok c' ∧ SameMd (ch i) c' ∧
    c'.getHits = .ok ((hs i).map (stored C))
  hits : (hits o devOk s').2 =
    .ok ((List.range s.num.toNat).flatMap (fun (i : Nat) => (hs i).map (stored C)))

/-- **C38 (part): one scan.** A scan with all its channels in memory comes back with its channels in
order, each with its stored metadata and its hits in order, and with its own metadata. Missing: the
telescope of the scan is not restored (`C38_telescope_lost`), and channels that are not in memory
lose their hits (`C38_unread_channels_lost`). -/
theorem C38_scan_partial (o : DOps D) (devOk : Dev → Bool) {C : Conv F D} (hC : C.Ints) (j : Junk)
    (noData : P) (cpu : Dev) (hcpu : devOk cpu = true) (s : Scan F D Dev P)
    (ch : Int → Channel F D Dev P) (hs : Int → List (Hit F D))
    (h : ScanStorable o devOk C s ch hs) :
    ∃ m s', toScanMsg o devOk C s = .ok m ∧ ofScanMsg o C j noData cpu m = .ok s' ∧
      ScanBack o devOk C s ch hs s' := by
  obtain ⟨dec, ra, tid, h1, h2, h3, h4⟩ := toMd_ok (fch1 := s.fch1) h.md
  have hnum : ((s.num.toNat : Nat) : Int) = s.num := by have := h.some; omega
  obtain ⟨ms, hm1, hm2⟩ := channelMsgs_ok o devOk hC noData cpu s ch hs s.num.toNat 0 s
    (SameView.refl s) (fun i a b => h.memory i a (by omega)) (fun i a b => h.reads i a (by omega))
    (fun i a b => h.channels i a (by omega))
  simp only [Int.zero_add] at hm2
  have hm : toScanMsg o devOk C s = .ok ⟨⟨s.hdr.sourceName, s.fch1, s.hdr.foff, s.hdr.tstart,
      s.hdr.tsamp, ra, dec, tid, s.ntsteps, s.nchans⟩, ms⟩ := by
    unfold toScanMsg
    simp only [h4, hm1, Outcome.bind_ok, Outcome.pure_eq]
  set cs := (List.range s.num.toNat).map
    (fun (n : Nat) => returned o C noData cpu (ch n) (hs n)) with hcs
  have hlen : cs.length = s.num.toNat := by simp [hcs]
  have hget : ∀ i, 0 ≤ i → i < s.num →
      cs[i.toNat]? = some (returned o C noData cpu (ch i) (hs i)) := by
    intro i a b
    have hlt : i.toNat < s.num.toNat := by omega
    have e : ((i.toNat : Nat) : Int) = i := by omega
    simp only [hcs, List.getElem?_map, List.getElem?_range hlt, Option.map_some, e]
  obtain ⟨c0, rest, hcons⟩ : ∃ c0 rest, cs = c0 :: rest := by
    cases hc : cs with
    | nil => rw [hc] at hlen; have := h.some; simp at hlen; omega
    | cons a b => exact ⟨a, b, rfl⟩
  have hs' : ∃ s', ofScanMsg o C j noData cpu ⟨⟨s.hdr.sourceName, s.fch1, s.hdr.foff, s.hdr.tstart,
      s.hdr.tsamp, ra, dec, tid, s.ntsteps, s.nchans⟩, ms⟩ = .ok s' ∧
      s'.cache = (fun k => if k < 0 then none else cs[k.toNat]?) ∧ s'.pipeline = [] ∧
      s'.num = (cs.length : Int) ∧ s'.offset = 0 ∧ s'.device = cpu ∧ s'.fch1 = s.fch1 ∧
      s'.hdr.foff = s.hdr.foff ∧ s'.hdr.sourceName = s.hdr.sourceName ∧ s'.hdr.srcDej = some dec ∧
      s'.hdr.srcRaj = some ra ∧ s'.hdr.tsamp = s.hdr.tsamp ∧ s'.hdr.tstart = s.hdr.tstart ∧
      s'.nchans = c0.nchans * (cs.length : Int) ∧ s'.ntsteps = c0.ntsteps ∧
      s'.duration = o.mul (o.ofInt c0.ntsteps) c0.hdr.tsamp := by
    unfold ofScanMsg
    simp only [hm2, Outcome.bind_ok, Outcome.pure_eq]
    rw [hcons]
    simp only [ofChannels, Outcome.bind_ok]
    exact ⟨_, rfl, rfl, rfl, rfl, rfl, rfl, rfl, rfl, rfl, rfl, rfl, rfl, rfl, rfl, rfl, rfl⟩
  obtain ⟨s', hof, hcache, hpipe, hnum', hoff, hdev, g1, g2, g3, g4, g5, g6, g7, g8, g9, g10⟩ := hs'
  have hc0 : c0 = returned o C noData cpu (ch 0) (hs 0) := by
    have := hget 0 (by omega) h.some
    rw [hcons] at this
    simpa using this
  have hn : s'.num = s.num := by rw [hnum', hlen]; exact hnum
  have hread : ∀ i, 0 ≤ i → i < s.num →
      (read o devOk s' i).2 = .ok (returned o C noData cpu (ch i) (hs i)) := by
    intro i a b
    rw [read_view]
    unfold view base
    rw [hn, if_neg (by omega), hcache, hoff, hpipe, hdev]
    simp only [Int.add_zero]
    rw [if_neg (by omega), hget i a b]
    simp only [Outcome.bind_ok, Channel.setDevice, hcpu, if_true]
    rfl
  refine ⟨_, s', hm, hof, hn, g1, g2, g3, g4.trans h1.symm, g5.trans h2.symm, g6, g7,
    by rw [g8, hc0, hlen, hnum]; rfl, by rw [g9, hc0]; rfl, by rw [g10, hc0]; rfl, ?_, ?_⟩
  · intro i a b
    exact ⟨_, hread i a b, returned_md o C noData cpu (ch i) (hs i), rfl⟩
  · have := C33_scan_hits_partial o devOk s' (fun i => returned o C noData cpu (ch i) (hs i))
      (fun i a b => hread i a (by omega)) (fun i a b => Or.inl ⟨_, rfl⟩)
    rw [this, hn]
    rfl

/-! ## Targets and cadences -/

theorem mapAll_exists {A B : Type} {f : A → Outcome B} {R : A → B → Prop} {l : List A}
    (h : ∀ a ∈ l, ∃ b, f a = .ok b ∧ R a b) : ∃ bs, mapAll f l = .ok bs ∧ List.Forall₂ R l bs := by
  induction l with
  | nil => exact ⟨[], rfl, .nil⟩
  | cons a l ih =>
    obtain ⟨b, h1, h2⟩ := h a (by simp)
    obtain ⟨bs, h3, h4⟩ := ih (fun x hx => h x (by simp [hx]))
    refine ⟨b :: bs, ?_, .cons h2 h4⟩
    simp only [mapAll, h1, h3, Outcome.bind_ok, Outcome.pure_eq]

theorem forall₂_mapAll {A B M : Type} {g : M → Outcome B} {R : A → B → Prop} {l : List A}
    {ms : List M} (h : List.Forall₂ (fun a m => ∃ b, g m = .ok b ∧ R a b) l ms) :
    ∃ bs, mapAll g ms = .ok bs ∧ List.Forall₂ R l bs := by
  induction h with
  | nil => exact ⟨[], rfl, .nil⟩
  | cons h1 _ ih =>
    obtain ⟨b, e, r⟩ := h1
    obtain ⟨bs, e', r'⟩ := ih
    exact ⟨b :: bs, by simp only [mapAll, e, e', Outcome.bind_ok, Outcome.pure_eq], .cons r r'⟩

/-- **C38 (part): a cadence through a file.** When every scan of every target can be stored
completely, the cadence comes back from its file with the same number of targets, each with the same
number of scans, in order, and every scan as in `C38_scan_partial`. Missing: the names of the targets
(`C38_target_name_lost`) and what is missing there. -/
theorem C38_cadence_partial (o : DOps D) (devOk : Dev → Bool) {C : Conv F D} (hC : C.Ints)
    (j : Junk) (noData : P) (cpu dflt : Dev) (hcpu : devOk cpu = true)
    {fr : Framing (List (List (ScanMsg F D)))} (before : List UInt8) (c : Cadence F D Dev P)
    (hfr : fr.LawfulOn fun m => toCadenceMsg o devOk C c = .ok m)
    (h : ∀ t ∈ c.targets, ∀ s ∈ t.scans, ∃ ch hs, ScanStorable o devOk C s ch hs) :
    ∃ bytes c', writeFile fr (toCadenceMsg o devOk C c) before = (bytes, .ok ()) ∧
      readFile fr (ofCadenceMsg o C j noData cpu dflt) bytes = .ok c' ∧
      List.Forall₂ (fun t t' => List.Forall₂
        (fun s s' => ∀ ch hs, ScanStorable o devOk C s ch hs → ScanBack o devOk C s ch hs s')
        t.scans t'.scans) c.targets c'.targets := by
  have hscan : ∀ t ∈ c.targets, ∀ s ∈ t.scans, ∃ m, toScanMsg o devOk C s = .ok m ∧
      ∃ s', ofScanMsg o C j noData cpu m = .ok s' ∧
        ∀ ch hs, ScanStorable o devOk C s ch hs → ScanBack o devOk C s ch hs s' := by
    intro t ht s hs
    obtain ⟨ch, hh, hst⟩ := h t ht s hs
    obtain ⟨m, s', h1, h2, _⟩ := C38_scan_partial o devOk hC j noData cpu hcpu s ch hh hst
    refine ⟨m, h1, s', h2, ?_⟩
    intro ch' hh' hst'
    obtain ⟨m2, s2, h1', h2', h3'⟩ := C38_scan_partial o devOk hC j noData cpu hcpu s ch' hh' hst'
    rw [h1] at h1'
    cases h1'
    rw [h2] at h2'
    cases h2'
    exact h3'
  have htarget : ∀ t ∈ c.targets, ∃ m, toTargetMsg o devOk C t = .ok m ∧
      ∃ t', ofTargetMsg o C j noData cpu dflt m = .ok t' ∧ List.Forall₂
        (fun s s' => ∀ ch hs, ScanStorable o devOk C s ch hs → ScanBack o devOk C s ch hs s')
        t.scans t'.scans := by
    intro t ht
    obtain ⟨ms, h1, h2⟩ := mapAll_exists (hscan t ht)
    obtain ⟨ss, h3, h4⟩ := forall₂_mapAll h2
    refine ⟨ms, h1, ⟨ss, "", dflt⟩, ?_, h4⟩
    unfold ofTargetMsg
    simp only [h3, Outcome.bind_ok, Outcome.pure_eq]
  obtain ⟨ms, h1, h2⟩ := mapAll_exists htarget
  obtain ⟨ts, h3, h4⟩ := forall₂_mapAll h2
  refine ⟨fr.encode ms, ⟨ts, dflt⟩, ?_, ?_, h4⟩
  · unfold writeFile
    have : toCadenceMsg o devOk C c = .ok ms := h1
    rw [this]
  · unfold readFile
    have := hfr.decode ms h1 []
    rw [List.append_nil] at this
    rw [this]
    simp only []
    unfold ofCadenceMsg
    simp only [h3, Outcome.bind_ok, Outcome.pure_eq]

/-! ## What does not come back -/

/-- Target names are not stored: every target of a cadence that was read has an empty name. -/
theorem C38_target_name_lost (o : DOps D) (C : Conv F D) (j : Junk) (noData : P) (cpu dflt : Dev)
    (m : List (List (ScanMsg F D))) (c : Cadence F D Dev P)
    (h : ofCadenceMsg o C j noData cpu dflt m = .ok c) : ∀ t ∈ c.targets, t.name = "" := by
  unfold ofCadenceMsg at h
  cases hm : mapAll (ofTargetMsg o C j noData cpu dflt) m with
  | throws e => rw [hm] at h; cases h
  | ub => rw [hm] at h; cases h
  | ok ts =>
    rw [hm] at h
    simp only [Outcome.bind_ok, Outcome.pure_eq, Outcome.ok.injEq] at h
    subst h
    have key : ∀ (m : List (List (ScanMsg F D))) (ts : List (Target F D Dev P)),
        mapAll (ofTargetMsg o C j noData cpu dflt) m = .ok ts → ∀ t ∈ ts, t.name = "" := by
      intro m
      induction m with
      | nil => intro ts h t ht; cases h; cases ht
      | cons x m ih =>
        intro ts h t ht
        simp only [mapAll] at h
        cases hx : ofTargetMsg o C j noData cpu dflt x with
        | throws e => rw [hx] at h; cases h
        | ub => rw [hx] at h; cases h
        | ok t0 =>
          rw [hx] at h
          simp only [Outcome.bind_ok] at h
          cases hr : mapAll (ofTargetMsg o C j noData cpu dflt) m with
          | throws e => rw [hr] at h; cases h
          | ub => rw [hr] at h; cases h
          | ok ts' =>
            rw [hr] at h
            simp only [Outcome.bind_ok, Outcome.pure_eq, Outcome.ok.injEq] at h
            subst h
            rcases List.mem_cons.1 ht with rfl | ht
            · unfold ofTargetMsg at hx
              cases hs : mapAll (ofScanMsg o C j noData cpu) x with
              | throws e => rw [hs] at hx; cases hx
              | ub => rw [hs] at hx; cases hx
              | ok ss =>
                rw [hs] at hx
                simp only [Outcome.bind_ok, Outcome.pure_eq, Outcome.ok.injEq] at hx
                subst hx
                rfl
            · exact ih ts' hr t ht
    exact key m ts hm

/-- The telescope of a scan is not restored, so a scan that was read from a file cannot be written to
a file again: asking for the telescope throws. -/
theorem C38_telescope_lost (o : DOps D) (devOk : Dev → Bool) (C : Conv F D) (j : Junk) (noData : P)
    (cpu : Dev) (m : ScanMsg F D) (s : Scan F D Dev P)
    (h : ofScanMsg o C j noData cpu m = .ok s) :
    s.hdr.telescopeId = none ∧ toScanMsg o devOk C s = .throws .badOptional := by
  unfold ofScanMsg at h
  cases hm : mapAll (ofChannelMsg o C noData cpu) m.channels with
  | throws e => rw [hm] at h; cases h
  | ub => rw [hm] at h; cases h
  | ok cs =>
    rw [hm] at h
    simp only [Outcome.bind_ok] at h
    cases cs with
    | nil => cases h
    | cons c rest =>
      simp only [ofChannels, Outcome.bind_ok, Outcome.pure_eq, Outcome.ok.injEq] at h
      subst h
      exact ⟨rfl, rfl⟩

/-- A scan without coarse channels is written but cannot be read back. -/
theorem C38_empty_scan (o : DOps D) (C : Conv F D) (j : Junk) (noData : P) (cpu : Dev) (md : Md D) :
    (ofScanMsg o C j noData cpu ⟨md, []⟩ : Outcome (Scan F D Dev P)) = .throws .outOfRange := rfl

theorem channelMsgs_unread (o : DOps D) (devOk : Dev → Bool) (C : Conv F D) (s : Scan F D Dev P)
    (hc : ∀ k, s.cache k = none) (k : Nat) (i : Int) (h0 : 0 ≤ i) (hk : i + k ≤ s.num + 1) :
    channelMsgs o devOk C k i s = .ok (List.replicate k (ChannelMsg.unset o)) := by
  induction k generalizing i with
  | zero => rfl
  | succ k ih =>
    unfold channelMsgs peek
    rw [if_neg (by push_cast at hk; omega), hc]
    simp only [ih (i + 1) (by omega) (by push_cast at hk ⊢; omega), Outcome.bind_ok, Outcome.pure_eq,
      List.replicate_succ]

/-- **C38 fails for channels that are not in memory.** Whatever hits the pipeline of a scan would
find: if none of its channels has been read yet, the file has no hits, and its scan no channels'
metadata. -/
theorem C38_unread_channels_lost (o : DOps D) (devOk : Dev → Bool) (C : Conv F D) (j : Junk)
    (noData : P) (cpu : Dev) (hcpu : devOk cpu = true) (s : Scan F D Dev P) (hnum : 0 < s.num)
    (hc : ∀ k, s.cache k = none) (hmd : MdStorable s.hdr s.ntsteps s.nchans) :
    ∃ m s', toScanMsg o devOk C s = .ok m ∧ ofScanMsg o C j noData cpu m = .ok s' ∧
      s'.num = s.num ∧ s'.nchans = 0 ∧ s'.ntsteps = 0 ∧ (hits o devOk s').2 = .ok [] := by
  obtain ⟨dec, ra, tid, h1, h2, h3, h4⟩ := toMd_ok (fch1 := s.fch1) hmd
  have hm1 := channelMsgs_unread o devOk C s hc s.num.toNat 0 (by omega) (by omega)
  obtain ⟨u, hu⟩ : ∃ u : Channel F D Dev P,
      ofChannelMsg o C noData cpu (ChannelMsg.unset o) = .ok u ∧ u.getHits = .ok [] ∧
        u.nchans = 0 ∧ u.ntsteps = 0 :=
    ⟨_, rfl, rfl, rfl, rfl⟩
  have hm2 : mapAll (ofChannelMsg o C noData cpu)
      (List.replicate s.num.toNat (ChannelMsg.unset o)) = .ok (List.replicate s.num.toNat u) := by
    rw [mapAll_ok (g := fun _ => u)]
    · simp
    · intro a ha
      rw [List.eq_of_mem_replicate ha]
      exact hu.1
  have hm : toScanMsg o devOk C s = .ok ⟨⟨s.hdr.sourceName, s.fch1, s.hdr.foff, s.hdr.tstart,
      s.hdr.tsamp, ra, dec, tid, s.ntsteps, s.nchans⟩, List.replicate s.num.toNat (ChannelMsg.unset o)⟩ := by
    unfold toScanMsg
    simp only [h4, hm1, Outcome.bind_ok, Outcome.pure_eq]
  have hs' : ∃ s', ofScanMsg o C j noData cpu ⟨⟨s.hdr.sourceName, s.fch1, s.hdr.foff, s.hdr.tstart,
      s.hdr.tsamp, ra, dec, tid, s.ntsteps, s.nchans⟩,
        List.replicate s.num.toNat (ChannelMsg.unset o)⟩ = .ok s' ∧
      s'.cache = (fun k => if k < 0 then none else (List.replicate s.num.toNat u)[k.toNat]?) ∧
      s'.pipeline = [] ∧ s'.num = s.num ∧ s'.offset = 0 ∧ s'.device = cpu ∧
      s'.nchans = 0 ∧ s'.ntsteps = 0 := by
    unfold ofScanMsg
    simp only [hm2, Outcome.bind_ok, Outcome.pure_eq]
    obtain ⟨n, hn⟩ : ∃ n, s.num.toNat = n + 1 := ⟨s.num.toNat - 1, by omega⟩
    rw [hn, List.replicate_succ]
    simp only [ofChannels, Outcome.bind_ok]
    refine ⟨_, rfl, rfl, rfl, ?_, rfl, rfl, ?_, hu.2.2.2⟩
    · simp only [List.length_cons, List.length_replicate]; omega
    · simp only [hu.2.2.1, Int.zero_mul]
  obtain ⟨s', hof, hcache, hpipe, hnum', hoff, hdev, g1, g2⟩ := hs'
  refine ⟨_, s', hm, hof, hnum', g1, g2, ?_⟩
  have hread : ∀ i, 0 ≤ i → i < s'.num →
      (read o devOk s' i).2 = .ok { u with device := cpu } := by
    intro i a b
    rw [read_view]
    unfold view base
    rw [if_neg (by omega), hcache, hoff, hpipe, hdev]
    simp only [Int.add_zero]
    rw [if_neg (by omega), List.getElem?_replicate_of_lt (by omega)]
    simp only [Outcome.bind_ok, Channel.setDevice, hcpu, if_true]
    rfl
  rw [C33_scan_hits_partial o devOk s' (fun _ => { u with device := cpu }) hread
    (fun i _ _ => Or.inl ⟨_, hu.2.1⟩)]
  have : contribution { u with device := cpu } = ([] : List (Hit F D)) := by
    unfold contribution
    have : Channel.getHits { u with device := cpu } = .ok [] := hu.2.1
    rw [this]
  simp only [this]
  simp

/-! ## C70, C71: crashes and failures -/

/-- **C70 fails.** When building the message throws — a channel in memory without hits is enough,
`C70_missing_hits` — the old contents of the file are gone. -/
theorem C70_failed_write_destroys_file {M : Type} (fr : Framing M) (e : Err) (before : List UInt8) :
    writeFile fr (.throws e) before = ([], .throws e) := rfl

/-- **C71: a truncated file is reported.** If a scan, target or cadence file is cut short at any byte,
reading it throws; it never delivers part of the contents. -/
theorem C71_truncation_reported {M A : Type} {fr : Framing M} {m : M}
    (hfr : fr.LawfulOn fun m' => m' = m) (conv : M → Outcome A) (before : List UInt8) (k : Nat)
    (hk : k < ((writeFile fr (.ok m) before).1).length) :
    readFile fr conv (((writeFile fr (.ok m) before).1).take k) = .throws .runtimeError := by
  simp only [writeFile] at hk ⊢
  unfold readFile
  rw [hfr.truncated m rfl _ (List.take_prefix _ _)]
  intro h
  have := congrArg List.length h
  rw [List.length_take] at this
  omega

/-! ## Concrete cases -/

/-- Two channels in memory, each with one hit. -/
def exChannel (n : Int) : Channel File.Float32 ℚ Bool Unit :=
  { fch1 := 8400 - n, hdr := exHeader, nchans := 4, ntsteps := 16, number := n
    data := .file [0, 0, 4 * n] [16, 1, 4], device := true
    hits := some (.ok [File.exHit (14204057 * 2 ^ (-13 : ℤ)) 59000]) }

/-- A scan of them. -/
def exStored : Scan File.Float32 ℚ Bool Unit :=
  { cache := fun k => if k < 2 then some (exChannel k) else none
    file := some (.ok [16, 1, 8]), pipeline := [], fch1 := 8400, hdr := exHeader, nchans := 8
    fine := 4, num := 2, offset := 0, ntsteps := 16, duration := 288, device := true }

theorem exStored_storable : ScanStorable ratOps id exConv exStored exChannel
    (fun _ => [File.exHit (14204057 * 2 ^ (-13 : ℤ)) 59000]) := by
  have hmd : ∀ n m : Int, Fits32 n → Fits32 m → MdStorable exHeader n m := fun n m h1 h2 =>
    ⟨rfl, rfl, ⟨6, rfl, by unfold Fits32; omega⟩, h1, h2⟩
  refine ⟨by decide, hmd _ _ (by unfold Fits32 exStored; decide) (by unfold Fits32 exStored; decide),
    ?_, ?_, ?_⟩
  · intro i h0 hi
    have hi : i < 2 := hi
    simp [exStored, hi]
  · intro i h0 hi
    have hi : i < 2 := hi
    rw [read_view]
    unfold view base exStored
    simp only [Int.add_zero]
    rw [if_neg (by omega), if_pos hi]
    rfl
  · intro i h0 hi
    refine ⟨hmd _ _ (by unfold Fits32 exChannel; simp only []; decide) (by unfold Fits32 exChannel; simp only []; decide), rfl, ?_⟩
    intro h hh
    rw [List.mem_singleton] at hh
    subst hh
    exact exHit_storable.2

example : ∃ m s', toScanMsg ratOps id exConv exStored = .ok m ∧
    ofScanMsg ratOps exConv ⟨0, 0, 0, 0⟩ () true m = .ok s' ∧
    ScanBack ratOps id exConv exStored exChannel
      (fun _ => [File.exHit (14204057 * 2 ^ (-13 : ℤ)) 59000]) s' :=
  C38_scan_partial ratOps id exConv_lawful.int _ _ _ rfl _ _ _ exStored_storable

/-- The hypotheses of `C38_unread_channels_lost`, for a scan whose pipeline finds a hit in every
channel. -/
example :
    (∃ m s', toScanMsg ratOps id exConv
        (addTransform (fun c => .ok { c with hits := (exChannel 0).hits })
          { exStored with cache := fun _ => none }) = .ok m ∧
      ofScanMsg ratOps exConv ⟨0, 0, 0, 0⟩ () true m = .ok s' ∧ s'.num = 2 ∧ s'.nchans = 0 ∧
      s'.ntsteps = 0 ∧ (hits ratOps id s').2 = .ok []) ∧
    (hits ratOps id (addTransform (fun c => .ok { c with hits := (exChannel 0).hits })
        { exStored with cache := fun _ => none })).2 =
      .ok [File.exHit (14204057 * 2 ^ (-13 : ℤ)) 59000,
        File.exHit (14204057 * 2 ^ (-13 : ℤ)) 59000] :=
  ⟨C38_unread_channels_lost ratOps id exConv _ _ _ rfl _ (by decide) (fun _ => rfl)
    exStored_storable.md, rfl⟩

/-- A channel was read but no hit search was set up: the write throws and the file is empty. -/
theorem C70_missing_hits (fr : Framing (ScanMsg File.Float32 ℚ)) (before : List UInt8) :
    writeFile fr (toScanMsg ratOps id exConv
      { exStored with cache := fun k => if k < 2 then some { exChannel k with hits := none } else none })
      before = ([], .throws .logicError) := rfl

end Bliss.Cadence
