import Verif.Drift.Spec

/-! # Helper lemmas for the CPU drift integrator -/

namespace Bliss.Drift

/-- The buffers hold the grids when read from the base pointer. -/
structure HoldsRaw {F : Type} (inp : Input F) (grid : Nat → Int → F) (mask : Nat → Int → UInt8) :
    Prop where
  spec : ∀ (t : Nat) (c : Int), t < inp.timeSteps → 0 ≤ c → c < inp.numChannels →
    inp.spec (t * inp.specStride0 + c * inp.specStride1) = some (grid t c)
  rfi : ∀ (t : Nat) (c : Int), t < inp.timeSteps → 0 ≤ c → c < inp.numChannels →
    inp.rfi (t * inp.rfiStride0 + c * inp.rfiStride1) = some (mask t c)

theorem Holds.raw {F : Type} {inp : Input F} {grid : Nat → Int → F} {mask : Nat → Int → UInt8}
    (h : Holds inp grid mask) (h1 : inp.specOffset = 0) (h2 : inp.rfiOffset = 0) :
    HoldsRaw inp grid mask :=
  ⟨fun t c ht hc hN => by have := h.spec t c ht hc hN; rwa [h1, Int.zero_add] at this,
   fun t c ht hc hN => by have := h.rfi t c ht hc hN; rwa [h2, Int.zero_add] at this⟩

theorem row_idx_inj {N : Nat} {i i' : Nat} {c c' : Int} (hc : 0 ≤ c) (hcN : c < N)
    (hc' : 0 ≤ c') (hcN' : c' < N) (h : (i : Int) * N + c = (i' : Int) * N + c') :
    i = i' ∧ c = c' := by
  have hN : (0 : Int) < N := by omega
  have h1 : ((i : Int) * N + c) / N = i := by
    rw [Int.add_comm, Int.add_mul_ediv_right _ _ (by omega), Int.ediv_eq_zero_of_lt hc hcN]; omega
  have h2 : ((i' : Int) * N + c') / N = i' := by
    rw [Int.add_comm, Int.add_mul_ediv_right _ _ (by omega), Int.ediv_eq_zero_of_lt hc' hcN']; omega
  rw [h, h2] at h1
  have : i = i' := by omega
  subst this
  exact ⟨rfl, by omega⟩

theorem row_idx_bound {D N i : Nat} {c : Int} (hi : i < D) (hc : 0 ≤ c) (hcN : c < N) :
    0 ≤ (i : Int) * N + c ∧ (i : Int) * N + c < (D : Int) * N := by
  have h1 : ((i : Int) + 1) * N ≤ D * N :=
    Int.mul_le_mul_of_nonneg_right (by omega) (by omega)
  have h2 : 0 ≤ (i : Int) * N := Int.mul_nonneg (by omega) (by omega)
  rw [Int.add_mul] at h1
  omega

/-- A dense `D × N` buffer holds the grid `P` and nothing else. -/
structure Rep1 {α : Type} (D N : Nat) (b : Buf α) (P : Nat → Int → α) : Prop where
  val : ∀ (i : Nat) (c : Int), i < D → 0 ≤ c → c < N → b ((i : Int) * N + c) = some (P i c)
  out : ∀ j : Int, (j < 0 ∨ (D : Int) * N ≤ j) → b j = none

theorem Rep1.load {α : Type} {D N : Nat} {b : Buf α} {P : Nat → Int → α} (h : Rep1 D N b P)
    {i : Nat} {c : Int} (hi : i < D) (hc : 0 ≤ c) (hcN : c < N) :
    b.load ((i : Int) * N + c) = .ok (P i c) := Buf.load_some (h.val i c hi hc hcN)

theorem Rep1.store {α : Type} {D N : Nat} {b : Buf α} {P : Nat → Int → α} (h : Rep1 D N b P)
    {i : Nat} {c : Int} (hi : i < D) (hc : 0 ≤ c) (hcN : c < N) (v : α) :
    ∃ b', b.store ((i : Int) * N + c) v = .ok b' ∧
      Rep1 D N b' (fun i' c' => if i' = i ∧ c' = c then v else P i' c') := by
  refine ⟨_, Buf.store_some (h.val i c hi hc hcN) v, ?_, ?_⟩
  · intro i' c' hi' hc' hcN'
    by_cases he : (i' : Int) * N + c' = (i : Int) * N + c
    · obtain ⟨rfl, rfl⟩ := row_idx_inj hc' hcN' hc hcN he
      simp
    · have : ¬ (i' = i ∧ c' = c) := by rintro ⟨rfl, rfl⟩; exact he rfl
      simp [he, this, h.val i' c' hi' hc' hcN']
  · intro j hj
    have := row_idx_bound hi hc hcN
    have hne : j ≠ (i : Int) * N + c := by omega
    simp [hne, h.out j hj]

theorem Rep1.bump {D N : Nat} {b : Buf UInt8} {P : Nat → Int → UInt8} (h : Rep1 D N b P)
    {i : Nat} {c : Int} (hi : i < D) (hc : 0 ≤ c) (hcN : c < N) (flags flag : UInt8) :
    ∃ b', bump flags flag b ((i : Int) * N + c) = .ok b' ∧
      Rep1 D N b' (fun i' c' =>
        if (i' = i ∧ c' = c) ∧ flags &&& flag ≠ 0 then P i' c' + 1 else P i' c') := by
  unfold Drift.bump
  by_cases hf : flags &&& flag = 0
  · refine ⟨b, by simp [hf], ?_, h.out⟩
    intro i' c' hi' hc' hcN'
    simp [hf, h.val i' c' hi' hc' hcN']
  · obtain ⟨b', hb', hr⟩ := h.store hi hc hcN (P i c + 1)
    refine ⟨b', by simp [hf, h.load hi hc hcN, hb'], ?_, hr.out⟩
    intro i' c' hi' hc' hcN'
    rw [hr.val i' c' hi' hc' hcN']
    by_cases he : i' = i ∧ c' = c
    · obtain ⟨rfl, rfl⟩ := he; simp [hf]
    · simp [he]

/-- The accumulator buffers hold the four grids. -/
structure Rep {F : Type} (D N : Nat) (a : Acc F) (P : Nat → Int → F)
    (L H R : Nat → Int → UInt8) : Prop where
  plane : Rep1 D N a.plane P
  lowsk : Rep1 D N a.lowsk L
  highsk : Rep1 D N a.highsk H
  rolloff : Rep1 D N a.rolloff R

theorem Rep1.congr {α : Type} {D N : Nat} {b : Buf α} {P Q : Nat → Int → α} (h : Rep1 D N b P)
    (hPQ : ∀ (i : Nat) (c : Int), i < D → 0 ≤ c → c < N → P i c = Q i c) : Rep1 D N b Q :=
  ⟨fun i c hi hc hcN => by rw [h.val i c hi hc hcN, hPQ i c hi hc hcN], h.out⟩

/-- Grid after applying `f c` to the cells of the columns `[lo, hi)` of row `i`. -/
def onRange {α : Type} (f : Int → α → α) (i : Nat) (lo hi : Int) (P : Nat → Int → α) :
    Nat → Int → α :=
  fun i' c' => if i' = i ∧ lo ≤ c' ∧ c' < hi then f c' (P i' c') else P i' c'

theorem onRange_split {α : Type} (f : Int → α → α) (i : Nat) (lo mid : Int) (h : lo ≤ mid)
    (P : Nat → Int → α) :
    onRange f i mid (mid + 1) (onRange f i lo mid P) = onRange f i lo (mid + 1) P := by
  funext i' c'
  unfold onRange
  by_cases h1 : i' = i ∧ mid ≤ c' ∧ c' < mid + 1
  · have h2 : ¬ (i' = i ∧ lo ≤ c' ∧ c' < mid) := by omega
    have h3 : i' = i ∧ lo ≤ c' ∧ c' < mid + 1 := by omega
    rw [if_pos h1, if_neg h2, if_pos h3]
  · by_cases h2 : i' = i ∧ lo ≤ c' ∧ c' < mid
    · have h3 : i' = i ∧ lo ≤ c' ∧ c' < mid + 1 := by omega
      rw [if_neg h1, if_pos h2, if_pos h3]
    · have h3 : ¬ (i' = i ∧ lo ≤ c' ∧ c' < mid + 1) := by omega
      rw [if_neg h1, if_neg h2, if_neg h3]

theorem onRange_empty {α : Type} (f : Int → α → α) (i : Nat) (lo : Int) (P : Nat → Int → α) :
    onRange f i lo lo P = P := by
  funext i' c'
  unfold onRange
  rw [if_neg (by omega)]

section
variable {F : Type} [Add F] [Div F] [IntCast F]

/-- Adding the sample at channel `c + shift` of time `t`. -/
def addF (grid : Nat → Int → F) (desmear : Int) (t : Nat) (shift : Int) : Int → F → F :=
  fun c x => x + grid t (c + shift) / (desmear : F)

/-- Bumping a counter when the sample at channel `c + shift` of time `t` is flagged. -/
def addC (mask : Nat → Int → UInt8) (flag : UInt8) (t : Nat) (shift : Int) : Int → UInt8 → UInt8 :=
  fun c x => if mask t (c + shift) &&& flag ≠ 0 then x + 1 else x

theorem channelBody_rep {D : Nat} {inp : Input F} {grid : Nat → Int → F}
    {mask : Nat → Int → UInt8} (hh : HoldsRaw inp grid mask) {desmear : Int} {i t : Nat}
    (hi : i < D) (ht : t < inp.timeSteps) {c s : Int}
    (hc : 0 ≤ c) (hcN : c < inp.numChannels) (hs : 0 ≤ s) (hsN : s < inp.numChannels)
    {a : Acc F} {P : Nat → Int → F} {L H R : Nat → Int → UInt8}
    (hr : Rep D inp.numChannels a P L H R) (p : Ptrs)
    (hp1 : p.plane = (i : Int) * inp.numChannels + c)
    (hp2 : p.lowsk = (i : Int) * inp.numChannels + c)
    (hp3 : p.highsk = (i : Int) * inp.numChannels + c)
    (hp4 : p.rolloff = (i : Int) * inp.numChannels + c)
    (hp5 : p.spec = t * inp.specStride0 + s * inp.specStride1)
    (hp6 : p.rfi = t * inp.rfiStride0 + s * inp.rfiStride1) :
    ∃ a', channelBody inp desmear (a, p) = .ok (a',
        { plane := p.plane + 1, spec := p.spec + inp.specStride1, lowsk := p.lowsk + 1,
          highsk := p.highsk + 1, rolloff := p.rolloff + 1, rfi := p.rfi + inp.rfiStride1 }) ∧
      Rep D inp.numChannels a' (onRange (addF grid desmear t (s - c)) i c (c + 1) P)
        (onRange (addC mask flagLowSK t (s - c)) i c (c + 1) L)
        (onRange (addC mask flagHighSK t (s - c)) i c (c + 1) H)
        (onRange (addC mask flagRolloff t (s - c)) i c (c + 1) R) := by
  obtain ⟨pl, hpl, rpl⟩ := hr.plane.store hi hc hcN (P i c + grid t s / (desmear : F))
  obtain ⟨b1, hb1, r1⟩ := hr.lowsk.bump hi hc hcN (mask t s) flagLowSK
  obtain ⟨b2, hb2, r2⟩ := hr.highsk.bump hi hc hcN (mask t s) flagHighSK
  obtain ⟨b3, hb3, r3⟩ := hr.rolloff.bump hi hc hcN (mask t s) flagRolloff
  have hcnt : ∀ (flag : UInt8) (Q : Nat → Int → UInt8) (i' : Nat) (c' : Int),
      (if (i' = i ∧ c' = c) ∧ mask t s &&& flag ≠ 0 then Q i' c' + 1 else Q i' c') =
        onRange (addC mask flag t (s - c)) i c (c + 1) Q i' c' := by
    intro flag Q i' c'
    unfold onRange addC
    by_cases he : i' = i ∧ c' = c
    · obtain ⟨rfl, rfl⟩ := he
      have : c' + (s - c') = s := by omega
      rw [if_pos (show i' = i' ∧ c' ≤ c' ∧ c' < c' + 1 by omega), this]
      simp
    · have : ¬ (i' = i ∧ c ≤ c' ∧ c' < c + 1) := by omega
      simp [he, this]
  refine ⟨{ plane := pl, lowsk := b1, highsk := b2, rolloff := b3 }, ?_, ?_,
    r1.congr fun i' c' _ _ _ => hcnt _ _ _ _, r2.congr fun i' c' _ _ _ => hcnt _ _ _ _,
    r3.congr fun i' c' _ _ _ => hcnt _ _ _ _⟩
  · unfold channelBody
    simp only [hp1, hp2, hp3, hp4, hp5, hp6, hr.plane.load hi hc hcN,
      Buf.load_some (hh.spec t s ht hs hsN), Buf.load_some (hh.rfi t s ht hs hsN),
      Outcome.bind_ok, hpl, hb1, hb2, hb3, Outcome.pure_eq]
  · refine rpl.congr ?_
    intro i' c' _ _ _
    unfold onRange addF
    by_cases he : i' = i ∧ c' = c
    · obtain ⟨rfl, rfl⟩ := he
      have : c' + (s - c') = s := by omega
      rw [if_pos (show i' = i' ∧ c' ≤ c' ∧ c' < c' + 1 by omega), this]
      simp
    · have : ¬ (i' = i ∧ c ≤ c' ∧ c' < c + 1) := by omega
      simp [he, this]

theorem addRange_rep {D : Nat} {inp : Input F} {grid : Nat → Int → F}
    {mask : Nat → Int → UInt8} (hh : HoldsRaw inp grid mask) {desmear : Int} {i t : Nat}
    (hi : i < D) (ht : t < inp.timeSteps) {lo hi' s : Int}
    (h0 : 0 ≤ lo) (h1 : lo ≤ hi') (h2 : hi' ≤ inp.numChannels) (h3 : 0 ≤ s)
    (h4 : s + (hi' - lo) ≤ inp.numChannels)
    {a : Acc F} {P : Nat → Int → F} {L H R : Nat → Int → UInt8}
    (hr : Rep D inp.numChannels a P L H R) :
    ∃ a', addRange inp desmear i t lo hi' s a = .ok a' ∧
      Rep D inp.numChannels a' (onRange (addF grid desmear t (s - lo)) i lo hi' P)
        (onRange (addC mask flagLowSK t (s - lo)) i lo hi' L)
        (onRange (addC mask flagHighSK t (s - lo)) i lo hi' H)
        (onRange (addC mask flagRolloff t (s - lo)) i lo hi' R) := by
  unfold addRange
  have hcount : tripCount (hi' - lo) = (hi' - lo).toNat := by
    unfold tripCount; rw [if_pos (by omega)]
  simp only [hcount]
  have key := forLoop_inv (n := (hi' - lo).toNat)
    (body := fun _ st => channelBody inp desmear st)
    (s := (a, ({ plane := (i : Int) * inp.numChannels + lo,
                 spec := t * inp.specStride0 + s * inp.specStride1,
                 lowsk := (i : Int) * inp.numChannels + lo,
                 highsk := (i : Int) * inp.numChannels + lo,
                 rolloff := (i : Int) * inp.numChannels + lo,
                 rfi := t * inp.rfiStride0 + s * inp.rfiStride1 } : Ptrs)))
    (fun k st => Rep D inp.numChannels st.1
        (onRange (addF grid desmear t (s - lo)) i lo (lo + k) P)
        (onRange (addC mask flagLowSK t (s - lo)) i lo (lo + k) L)
        (onRange (addC mask flagHighSK t (s - lo)) i lo (lo + k) H)
        (onRange (addC mask flagRolloff t (s - lo)) i lo (lo + k) R) ∧
      st.2 = { plane := (i : Int) * inp.numChannels + (lo + k),
               spec := t * inp.specStride0 + (s + k) * inp.specStride1,
               lowsk := (i : Int) * inp.numChannels + (lo + k),
               highsk := (i : Int) * inp.numChannels + (lo + k),
               rolloff := (i : Int) * inp.numChannels + (lo + k),
               rfi := t * inp.rfiStride0 + (s + k) * inp.rfiStride1 }) ?_ ?_
  · obtain ⟨st, hst, hrep, _⟩ := key
    refine ⟨st.1, by simp [hst], ?_⟩
    have : lo + ((hi' - lo).toNat : Int) = hi' := by omega
    rwa [this] at hrep
  · simpa [onRange_empty] using hr
  · rintro k ⟨a1, p⟩ hk ⟨hrep, hp⟩
    simp only at hrep hp
    obtain ⟨a2, ha2, hrep2⟩ := channelBody_rep hh (desmear := desmear) hi ht
      (c := lo + k) (s := s + k) (by omega) (by omega) (by omega) (by omega) hrep p
      (by rw [hp]) (by rw [hp]) (by rw [hp]) (by rw [hp]) (by rw [hp]) (by rw [hp])
    have e : s + (k : Int) - (lo + k) = s - lo := by omega
    rw [e] at hrep2
    simp only [onRange_split _ _ _ _ (show lo ≤ lo + (k : Int) by omega)] at hrep2
    refine ⟨_, ha2, ?_, ?_⟩
    · have e2 : lo + ((k + 1 : Nat) : Int) = lo + k + 1 := by omega
      rw [e2]; exact hrep2
    · rw [hp]
      have e1 : ∀ z : Int, (s + ((k + 1 : Nat) : Int)) * z = (s + k) * z + z := by
        intro z
        have : s + ((k + 1 : Nat) : Int) = s + k + 1 := by omega
        rw [this, Int.add_mul (s + k)]; omega
      simp only [e1, Ptrs.mk.injEq]
      refine ⟨?_, ?_, ?_, ?_, ?_, ?_⟩ <;> omega

end

end Bliss.Drift
