import Verif.Model.Dma
import Verif.Spec.Frame

/-!
# Specification vocabulary for the capture DMA
-/

namespace Verif.Spec.Dma

open Verif.Dma Verif.Spec.Frame Verif.Spec.Stream

variable {α : Type}

/-- State of the DMA at clock `t`, from reset. -/
abbrev dma (nslots aw al : Nat) (x : Nat → In α) (t : Nat) : State :=
  trace (step nslots aw al) reset x t

/-- Software writes only to slots that are not LOADED. -/
def Owned (nslots aw al : Nat) (x : Nat → In α) : Prop :=
  ∀ t n, ((dma nslots aw al x t).slots n).valid = true →
    (x t).sw n = { status := none, address := none }

/-- The same from clock `t0` on. -/
def OwnedFrom (nslots aw al : Nat) (x : Nat → In α) (t0 : Nat) : Prop :=
  ∀ t n, t0 ≤ t → ((dma nslots aw al x t).slots n).valid = true →
    (x t).sw n = { status := none, address := none }

/-- A transfer begins at clock `t`: the DMA is waiting, the current slot is LOADED and a word marked
as start of frame is offered. -/
def Begins (nslots aw al : Nat) (x : Nat → In α) (t : Nat) : Prop :=
  (dma nslots aw al x t).fsm = .waitSof ∧ addressValid (dma nslots aw al x t) = true ∧
    (x t).sof = true ∧ (x t).valid = true

/-- The words accepted from the frame stream at clocks `t, ..., t + n - 1`. -/
def takenIn (nslots aw al : Nat) (x : Nat → In α) (t n : Nat) : List α :=
  pickIn (fun u => (x u).valid && frameReady (dma nslots aw al x u) (x u))
    (fun u => (x u).pixels) t n

/-- The (address, data) pairs written to memory at clocks `t, ..., t + n - 1`. -/
def writesIn (nslots aw al : Nat) (x : Nat → In α) (t n : Nat) : List (Nat × α) :=
  pickIn (fun u => writes (dma nslots aw al x u) (x u))
    (fun u => busWord (dma nslots aw al x u) (x u)) t n

/-- The words `ws` at consecutive addresses from `a` on. -/
def block (aw a : Nat) (ws : List α) : List (Nat × α) :=
  ws.mapIdx fun i w => ((a + i) % 2 ^ aw, w)

/-- The frame stream keeps a word that is not accepted. -/
def Held (nslots aw al : Nat) (x : Nat → In α) : Prop :=
  ∀ t, (x t).valid = true → frameReady (dma nslots aw al x t) (x t) = false →
    (x (t + 1)).valid = true ∧ (x (t + 1)).sof = (x t).sof ∧ (x (t + 1)).pixels = (x t).pixels

/-- At clock `u` slot `n` finishes: its transfer is over and all its words have left the memory
port. -/
def Finishes (nslots aw al : Nat) (x : Nat → In α) (n u : Nat) : Prop :=
  (dma nslots aw al x u).fsm = .eof ∧ (x u).wdataValid = false ∧
    (dma nslots aw al x u).current_slot = n

/-- At clock `u` software writes the status register of slot `n`, with bit 1 equal to `b`. -/
def WritesPending (x : Nat → In α) (n u : Nat) (b : Bool) : Prop :=
  ∃ v, ((x u).sw n).status = some v ∧ v.getLsbD 1 = b

/-- Slot `n` wants attention at clock `t`: it has finished (or software has marked it PENDING itself)
and software has not acknowledged it since. -/
def Unserved (nslots aw al : Nat) (x : Nat → In α) (n t : Nat) : Prop :=
  ∃ u, u < t ∧
    (Finishes nslots aw al x n u ∧ ¬ WritesPending x n u false ∨ WritesPending x n u true) ∧
    ∀ v, u < v → v < t → ¬ WritesPending x n v false

end Verif.Spec.Dma
