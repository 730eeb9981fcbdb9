import Verif.Misc.Passband
import Verif.Misc.RawFile

/-!
# The program that writes channelizer responses (C152)

`main` of `bliss/bliss_generate_channelizer_response.cpp`.
-/

namespace Bliss.ResponseTool

open Bliss.Nd Bliss.Stat Bliss.Passband

variable {V D : Type}

/-- The options (`bliss_generate_channelizer_response.cpp:19-24`). -/
structure Options where
  outFile : String := "channelizer_response.f32"
  coarse : Nat := 256
  device : String := "cpu"
  fine : Nat := 1048576
  taps : Nat := 12
  help : Bool := false

/-- The contents of the files, by name. -/
abbrev Files := String → Option (List UInt8)

/-- `main` (`bliss_generate_channelizer_response.cpp:17-72`): the help screen, or the response on the
default device `"cpu"` of `gen_coarse_channel_response` (`passband_static_equalize.hpp:13`) and the bytes
of it in the file. `parsed` says whether the command line was understood; `bytes` is how the floats lie in
memory. Simplified: negative numbers as options are left out. -/
def run (o : StatOps V D) (divV : V → V → V) (power : Buf V → Nat → V) (firdes : Options → Int → V)
    (bytes : Heap V → Arr → RawFile.Bytes) (jf j1 j2 j3 : Int → V) (h : Heap V) (parsed : Bool) (opt : Options)
    (files : Files) : Outcome Files := do
  if !parsed || opt.help then pure files else
  let (h', r) ← genResponse o divV power (firdes opt) opt.fine opt.coarse
    ((opt.taps * opt.coarse : Nat) : Int) jf j1 j2 j3 h
  let content ← RawFile.writeFile (bytes h' r) r
  pure (fun name => if name = opt.outFile then some content else files name)

/-- **C152 is violated:** a run that ends regularly has only shown the help screen. For no options is a
response written. -/
theorem C152_never_writes (o : StatOps V D) (divV : V → V → V) (power : Buf V → Nat → V)
    (firdes : Options → Int → V) (bytes : Heap V → Arr → RawFile.Bytes) (jf j1 j2 j3 : Int → V) (h : Heap V)
    (parsed : Bool) (opt : Options) (files files' : Files)
    (hr : run o divV power firdes bytes jf j1 j2 j3 h parsed opt files = .ok files') :
    (parsed = false ∨ opt.help = true) ∧ files' = files := by
  unfold run at hr
  split at hr
  · rename_i hc
    simp only [Outcome.pure_eq, Outcome.ok.injEq] at hr
    refine ⟨?_, hr.symm⟩
    simpa using hc
  · obtain ⟨r, hg, _⟩ := bind_eq_ok hr
    exact absurd hg (C95_never_returns o divV power (firdes opt) opt.fine opt.coarse (opt.taps * opt.coarse)
      jf j1 j2 j3 h r)

/-- The response for both telescopes named in the help screen, and for every other even number of fine
channels with no more taps than fine channels, is undefined behaviour, on whatever device it was asked. -/
theorem C152_even_undefined (o : StatOps V D) (divV : V → V → V) (power : Buf V → Nat → V)
    (firdes : Options → Int → V) (bytes : Heap V → Arr → RawFile.Bytes) (jf j1 j2 j3 : Int → V) (h : Heap V)
    (opt : Options) (files : Files) (hh : opt.help = false) (heven : opt.fine % 2 = 0)
    (ht : opt.taps ≤ opt.fine) :
    run o divV power firdes bytes jf j1 j2 j3 h true opt files = .ub := by
  unfold run
  have := C95_even_undefined o divV power (firdes opt) opt.fine opt.coarse (opt.taps * opt.coarse)
    jf j1 j2 j3 h (by rw [Nat.mul_mod, heven]; simp) (by rw [Nat.mul_comm]; exact Nat.mul_le_mul_left _ ht)
  rw [this, hh]
  rfl

/-- With the help option the program ends and writes nothing. -/
theorem C152_help (o : StatOps V D) (divV : V → V → V) (power : Buf V → Nat → V)
    (firdes : Options → Int → V) (bytes : Heap V → Arr → RawFile.Bytes) (jf j1 j2 j3 : Int → V) (h : Heap V)
    (parsed : Bool) (opt : Options) (files : Files) (hh : parsed = false ∨ opt.help = true) :
    run o divV power firdes bytes jf j1 j2 j3 h parsed opt files = .ok files := by
  unfold run
  rw [if_pos (by simpa using hh)]
  rfl

/-- Non-vacuity: the examples of the help screen, ATA and GBT. -/
example : ({ fine := 131072, taps := 4, coarse := 2048 } : Options).fine % 2 = 0 ∧
    4 ≤ 131072 ∧ ({} : Options).fine % 2 = 0 ∧ ({} : Options).taps ≤ ({} : Options).fine := by decide

end Bliss.ResponseTool
