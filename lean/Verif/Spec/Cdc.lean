import Verif.Spec.CaptureCdc
import Verif.Model.HdmiCdc
import Verif.Spec.Receiver
import Verif.Spec.Serial

/-!
# Specification vocabulary for captures with the circuit of the FIFO

The same as in `Spec/Capture`, in terms of the registers of the circuit.
-/

namespace Verif.Spec.Cdc

open Verif.Capture Verif.Spec.Frame Verif.Spec.Stream Verif.Spec.CaptureCdc

variable {σ : Type} {n w : Nat} (E : Extractor σ w) (nslots aw al : Nat)
  (f0 : GrayFifo.State n (Word w)) (x : Nat → CaptureCdc.In n w)

/-- From instant `T0` on software writes only to slots that are not LOADED. -/
def SoftwareOwns (T0 : Nat) : Prop :=
  ∀ t k, T0 ≤ t → (x t).sysEdge = true → ((circuit E nslots aw al f0 x t).dma.slots k).valid = true →
    (x t).sw k = { status := none, address := none }

/-- From instant `T0` on software makes no slot LOADED. -/
def LoadsNone (T0 : Nat) : Prop :=
  ∀ t k v, T0 ≤ t → (x t).sysEdge = true → ((x t).sw k).status = some v → v.getLsbD 0 = false

/-- The capture path is at rest: nothing is in the FIFO and no transfer is in progress. -/
def AtRest (t : Nat) : Prop :=
  (circuit E nslots aw al f0 x t).fifo.consume = (circuit E nslots aw al f0 x t).fifo.produce ∧
    (circuit E nslots aw al f0 x t).dma.fsm = .waitSof

/-- The transfer to slot `k` is complete at the system clock edge at instant `e`. -/
def Done (e k : Nat) : Prop :=
  (x e).sysEdge = true ∧ (circuit E nslots aw al f0 x e).dma.current_slot = k ∧
    Dma.addressDone (circuit E nslots aw al f0 x e).dma
      (Verif.CaptureCdc.dmaIn (circuit E nslots aw al f0 x e) (x e)) = true

/-- The transfer to slot `k` that is complete at instant `e` began at instant `b` with the slot
LOADED; in between nothing but the words `ws` has been written, in order from the slot's address on;
and at the end the memory holds them there. -/
def Captured (b e k : Nat) (ws : List (List Nat)) : Prop :=
  b < e ∧
  let slot := (circuit E nslots aw al f0 x b).dma.slots k
  let a := slot.word aw al
  (circuit E nslots aw al f0 x b).dma.current_slot = k ∧ slot.valid = true ∧
  (memWrites E nslots aw al f0 x (b + 1) (e - b)).map (fun w => (w.1, Spec.Capture.pixels w.2)) =
    Spec.Dma.block aw a ws ∧
  ∀ i, i < ws.length →
    (Spec.Capture.memory (memWrites E nslots aw al f0 x 0 (e + 1)) ((a + i) % 2 ^ aw)).map
      Spec.Capture.pixels = ws[i]?

/-- From instant `T0` on each transfer that is done has brought the words of one frame to memory, and no
earlier or equal one than any transfer done before.  `frame e j ws` says that frame number `j` consists of
the words `ws` and may be complete at instant `e`. -/
def InOrder (T0 : Nat) (frame : Nat → Nat → List (List Nat) → Prop) : Prop :=
  ∃ F : Nat → Nat,
    (∀ e k, T0 ≤ e → Done E nslots aw al f0 x e k →
      ∃ b ws, T0 ≤ b ∧ frame e (F e) ws ∧ Captured E nslots aw al f0 x b e k ws) ∧
    ∀ e k e' k', T0 ≤ e → e < e' → Done E nslots aw al f0 x e k → Done E nslots aw al f0 x e' k' →
      F e < F e'

/-- Whenever a captured word is offered to the FIFO it takes it. -/
def NeverRefuses : Prop :=
  ∀ t, (x t).pixEdge = true → offers E (circuit E nslots aw al f0 x t).frame = true →
    GrayFifo.writable (circuit E nslots aw al f0 x t).fifo = true

/-- What software reads in the overflow register at instant `t`, if it has written it at the system clocks
at which `re` is set. -/
def overflow (re : Nat → Bool) (t : Nat) : Bool :=
  Frame.Overflow.csr (trace Frame.Overflow.step Frame.Overflow.reset
    (fun u => ⟨(x u).pixEdge, offers E (circuit E nslots aw al f0 x u).frame &&
      !GrayFifo.writable (circuit E nslots aw al f0 x u).fifo, (x u).sysEdge, re u⟩) t)

/-- HDMI input at instant `t`. -/
abbrev hdmiCdc (y : Nat → HdmiCdc.In n w) (t : Nat) : HdmiCdc.State σ n w :=
  trace (HdmiCdc.step E nslots aw al) (HdmiCdc.start E f0) y t

/-- Inputs of its capture path at instant `t`. -/
def cdcIn (y : Nat → HdmiCdc.In n w) (t : Nat) : CaptureCdc.In n w :=
  HdmiCdc.capIn (hdmiCdc E nslots aw al f0 y t).rx (y t)

/-- At the pixel clocks the three lanes deliver the bits `bits`. -/
def LanesDeliver (bits : Nat → Nat → Bool) (y : Nat → HdmiCdc.In n w) : Prop :=
  ∀ t, (y t).pixEdge = true → (y t).raw =
    let c := countIn (fun u => (y u).pixEdge) 0 t
    ⟨Serial.deserialised (bits 0) c, Serial.deserialised (bits 1) c, Serial.deserialised (bits 2) c⟩

/-- Only the pixel clock and the captured words of an HDMI input: what a link determines. -/
def linkOf (y : Nat → HdmiCdc.In n w) (t : Nat) : HdmiIn.In :=
  { pixEdge := (y t).pixEdge, raw := (y t).raw, wok := true, sysEdge := false, rok := true
    busReady := false, wdataValid := false, frame_size := 0, sw := fun _ => { status := none, address := none } }

end Verif.Spec.Cdc
