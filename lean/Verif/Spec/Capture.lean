import Verif.Model.Capture
import Verif.Spec.AsyncFifo
import Verif.Spec.Frame
import Verif.Spec.Dma

/-!
# Specification vocabulary for the capture path
-/

namespace Verif.Spec.Capture

open Verif.Capture Verif.Spec.Frame Verif.Spec.Stream

variable {σ : Type} {w : Nat}

/-- The video input is the sequence `V`, one element per pixel clock. -/
def Video (x : Nat → In) (V : Nat → Frame.In) : Prop :=
  ∀ t, (x t).pixEdge = true → (x t).video = V (countIn (fun u => (x u).pixEdge) 0 t)

/-- `FrameExtraction` after `c` pixel clocks of the video `V`. -/
abbrev extract (E : Extractor σ w) (V : Nat → Frame.In) (c : Nat) : σ := trace E.step E.reset V c

variable (E : Extractor σ w) (depth nslots aw al : Nat) (x : Nat → In)

/-- State of the capture path at instant `t`. -/
abbrev capture (t : Nat) : State σ w := trace (step E depth nslots aw al) (reset E) x t

/-- No overflow at the instants from `T0` to `T - 1`: whenever a word is offered to the FIFO there
is room. -/
def NoOverflow (T0 T : Nat) : Prop :=
  ∀ t, T0 ≤ t → t < T → (x t).pixEdge = true →
    offers E (capture E depth nslots aw al x t).frame = true →
    (x t).wok = true ∧ (capture E depth nslots aw al x t).fifo.length < depth

/-- From instant `T0` on software writes only to slots that are not LOADED. -/
def SoftwareOwns (T0 : Nat) : Prop :=
  ∀ t n, T0 ≤ t → (x t).sysEdge = true →
    ((capture E depth nslots aw al x t).dma.slots n).valid = true →
    (x t).sw n = { status := none, address := none }

/-- The capture path is at rest: nothing is queued and no transfer is in progress. -/
def AtRest (t : Nat) : Prop :=
  (capture E depth nslots aw al x t).fifo = [] ∧
    (capture E depth nslots aw al x t).dma.fsm = .waitSof

/-- The (address, data) pairs written to memory at instants `t, ..., t + n - 1`. -/
def memWrites (t n : Nat) : List (Nat × List (BitVec w)) :=
  pickIn (fun u => (x u).sysEdge && Dma.writes (capture E depth nslots aw al x u).dma
      (dmaIn (capture E depth nslots aw al x u) (x u)))
    (fun u => Dma.busWord (capture E depth nslots aw al x u).dma
      (dmaIn (capture E depth nslots aw al x u) (x u))) t n

/-- A memory after some writes; `none` where nothing has been written. -/
def memory {α : Type} (l : List (Nat × α)) : Nat → Option α :=
  l.foldl (fun m w a => if a = w.1 then some w.2 else m a) fun _ => none

/-- A memory word as the list of its pixels, the most significant first. -/
def pixels (p : List (BitVec w)) : List Nat := (msFirst p).map BitVec.toNat

/-- The transfer to slot `k` is complete at the system clock edge at instant `e`. -/
def Done (e k : Nat) : Prop :=
  (x e).sysEdge = true ∧ (capture E depth nslots aw al x e).dma.current_slot = k ∧
    Dma.addressDone (capture E depth nslots aw al x e).dma
      (dmaIn (capture E depth nslots aw al x e) (x e)) = true

/-- The clocks keep running, and again and again there is a system clock at which the FIFO shows what
it holds and the memory takes a word, and one at which no write data is in transit. -/
structure Alive : Prop where
  pix : ∀ T, ∃ u, T ≤ u ∧ (x u).pixEdge = true
  bus : ∀ T, ∃ u, T ≤ u ∧ (x u).sysEdge = true ∧ (x u).rok = true ∧ (x u).busReady = true
  drained : ∀ T, ∃ u, T ≤ u ∧ (x u).sysEdge = true ∧ (x u).wdataValid = false

/-- From instant `T0` on software makes no slot LOADED. -/
def LoadsNone (T0 : Nat) : Prop :=
  ∀ t n v, T0 ≤ t → (x t).sysEdge = true → ((x t).sw n).status = some v → v.getLsbD 0 = false

/-- The transfer to slot `k` that is complete at instant `e` began at instant `b` with the slot
LOADED; in between nothing but the words `ws` has been written, in order from the slot's address on;
and at the end the memory holds them there. -/
def Captured (b e k : Nat) (ws : List (List Nat)) : Prop :=
  b < e ∧
  let slot := (capture E depth nslots aw al x b).dma.slots k
  let a := slot.word aw al
  (capture E depth nslots aw al x b).dma.current_slot = k ∧ slot.valid = true ∧
  (memWrites E depth nslots aw al x (b + 1) (e - b)).map (fun w => (w.1, pixels w.2)) =
    Spec.Dma.block aw a ws ∧
  ∀ i, i < ws.length →
    (memory (memWrites E depth nslots aw al x 0 (e + 1)) ((a + i) % 2 ^ aw)).map pixels = ws[i]?

/-- At the system clock edge at instant `b` software lends the memory word at address `a` to the capture
path: it lies within the first `frame_size` bytes of a slot that is LOADED. -/
def Lent (b a : Nat) : Prop :=
  (x b).sysEdge = true ∧ ∃ k, k < nslots ∧
    ((capture E depth nslots aw al x b).dma.slots k).valid = true ∧
    ∃ i, i < Dma.wordsOf aw al (x b).frame_size ∧
      a = (((capture E depth nslots aw al x b).dma.slots k).word aw al + i) % 2 ^ aw

/-- From instant `T0` on each transfer that is done, provided that no overflow has occurred, has brought
the words of one frame to memory, and no earlier or equal one than any transfer done before.  `frame e j
ws` says that frame number `j` consists of the words `ws` and may be complete at instant `e`. -/
def InOrder (T0 : Nat) (frame : Nat → Nat → List (List Nat) → Prop) : Prop :=
  ∃ F : Nat → Nat,
    (∀ e k, T0 ≤ e → NoOverflow E depth nslots aw al x T0 (e + 1) → Done E depth nslots aw al x e k →
      ∃ b ws, T0 ≤ b ∧ frame e (F e) ws ∧ Captured E depth nslots aw al x b e k ws) ∧
    ∀ e k e' k', T0 ≤ e → e < e' → NoOverflow E depth nslots aw al x T0 (e' + 1) →
      Done E depth nslots aw al x e k → Done E depth nslots aw al x e' k' → F e < F e'

end Verif.Spec.Capture
