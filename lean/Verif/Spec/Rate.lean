import Verif.Spec.Cdc

/-!
# Specification vocabulary for the data rate of the capture path

The conditions mention only the clocks, the `ready` of the memory and its write data in transit.
-/

namespace Verif.Spec.Capture

open Verif.Capture Verif.Spec.Stream

/-- Clocks and memory of a capture path with `pf` pixels per word.  While `B` words of pixels arrive there
are at least `W` system clocks; among any `W` system clocks there are at most `R` at which the memory
takes no word; and once no word is handed over any more the data in transit is gone after at most `d`
system clocks.  `handed u`: a word is handed to the memory at instant `u`. -/
structure FastEnough (pf B W R d : Nat) (pixEdge sysEdge busReady wdataValid handed : Nat → Bool) :
    Prop where
  clocks : ∀ t m, B * pf ≤ countIn pixEdge t m → W ≤ countIn sysEdge t m
  refuses : ∀ t m, countIn sysEdge t m ≤ W → countIn (fun u => sysEdge u && !busReady u) t m ≤ R
  drains : ∀ t m, (∀ u, t ≤ u → u < t + m → sysEdge u = true →
    wdataValid u = true ∧ handed u = false) → countIn sysEdge t m ≤ d

variable {σ : Type} {w : Nat} (E : Extractor σ w) (depth nslots aw al : Nat) (x : Nat → In)

/-- A word is handed to the memory at instant `u`. -/
def handed (u : Nat) : Bool :=
  (x u).sysEdge && Dma.writes (capture E depth nslots aw al x u).dma
    (dmaIn (capture E depth nslots aw al x u) (x u))

/-- The read side of the FIFO lags by at most `K` system clocks: it hides what it holds only if all of
it has come since some instant `v`, at most `K` system clocks ago. -/
def HidesBy (K : Nat) : Prop :=
  ∀ t, (x t).rok = false → ∃ v, v ≤ t ∧ countIn (fun u => (x u).sysEdge) v (t - v) ≤ K ∧
    (capture E depth nslots aw al x t).fifo.length ≤
      countIn (writesWord E depth nslots aw al x) v (t - v)

/-- The same for the capture path with the circuit of its FIFO. -/
def circuitHanded {n : Nat} (f0 : GrayFifo.State n (Word w)) (x : Nat → CaptureCdc.In n w) (u : Nat) :
    Bool :=
  (x u).sysEdge && Dma.writes (CaptureCdc.circuit E nslots aw al f0 x u).dma
    (Verif.CaptureCdc.dmaIn (CaptureCdc.circuit E nslots aw al f0 x u) (x u))

end Verif.Spec.Capture
