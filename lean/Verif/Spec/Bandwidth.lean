import Verif.Spec.Capture

/-!
# Specification vocabulary for the bandwidth of the capture path
-/

namespace Verif.Spec.Capture

open Verif.Capture Verif.Spec.Stream

/-- Among the instants from `t` to `e - 1` there are `k` turns one after the other.  A turn is a system
clock at which no write data is in transit, a later one at which the FIFO shows what it holds, and a
later one at which moreover the memory is ready. -/
def Serves (x : Nat → In) (t e : Nat) : Nat → Prop
  | 0 => True
  | k + 1 => ∃ u v w, t ≤ u ∧ u < v ∧ v < w ∧ w < e ∧
      ((x u).sysEdge = true ∧ (x u).wdataValid = false) ∧
      ((x v).sysEdge = true ∧ (x v).rok = true) ∧
      ((x w).sysEdge = true ∧ (x w).rok = true ∧ (x w).busReady = true) ∧
      Serves x (w + 1) e k

variable {σ : Type} {w : Nat} (E : Extractor σ w) (depth nslots aw al : Nat) (x : Nat → In)

/-- The memory keeps up: during any `B * pf` pixel clocks (the time in which `B` words of pixels arrive)
throughout which the FIFO is not empty, there are `B` turns. -/
def KeepsUp (B : Nat) : Prop :=
  ∀ t e, (∀ u, t ≤ u → u < e → (capture E depth nslots aw al x u).fifo ≠ []) →
    B * E.pf ≤ countIn (fun u => (x u).pixEdge) t (e - t) → Serves x t e B

/-- A word is written to the FIFO at instant `u`. -/
def writesWord (u : Nat) : Bool :=
  AsyncFifo.sinkReady depth (capture E depth nslots aw al x u).fifo
      (fifoIn E (capture E depth nslots aw al x u) (x u)) &&
    (fifoIn E (capture E depth nslots aw al x u) (x u)).push

/-- The write side of the FIFO lags by at most `K` pixel clocks: it refuses a word only if the FIFO
would be full were nothing taken from it since some instant `v`, at most `K` pixel clocks ago. -/
def LagsBy (K : Nat) : Prop :=
  ∀ t, (x t).wok = false → ∃ v, v ≤ t ∧ countIn (fun u => (x u).pixEdge) v (t - v) ≤ K ∧
    depth ≤ (capture E depth nslots aw al x v).fifo.length +
      countIn (writesWord E depth nslots aw al x) v (t - v)

end Verif.Spec.Capture
