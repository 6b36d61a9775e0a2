import Verif.Machine

/-!
# Capture DMA

Model of `litevideo/input/dma.py`.  Slots are numbered `0, ..., nslots-1`; per-slot quantities are
functions of the slot number.  `aw` is `dram_port.aw` and `al` is `alignment_bits`.
-/

namespace Verif.Dma

/-- CSRs of a `_Slot` (dma.py:19-20). -/
structure Slot where
  status : BitVec 2
  address : Nat
deriving DecidableEq, Repr

/-- `storage[alignment_bits:]` of a register of `aw + al` bits into which `v` was written
(dma.py:25,94). -/
def wordsOf (aw al v : Nat) : Nat := v / 2 ^ al % 2 ^ aw

/-- `slot.address`: the address register without its alignment bits (dma.py:25). -/
def Slot.word (aw al : Nat) (s : Slot) : Nat := wordsOf aw al s.address

/-- `slot.address_valid` (dma.py:26). -/
def Slot.valid (s : Slot) : Bool := s.status.getLsbD 0

/-- `ev_source.trigger` (dma.py:31). -/
def Slot.pending (s : Slot) : Bool := s.status.getLsbD 1

/-- A software write to the CSRs of a slot; `none` leaves a register alone. -/
structure SlotWrite where
  status : Option (BitVec 2)
  address : Option Nat

/-- One clock edge of a slot (dma.py:24-32).  A software write in the same clock as `address_done`
wins (LiteX `CSRStorage`); the theorems do not depend on this. -/
def Slot.step (al : Nat) (s : Slot) (w : SlotWrite) (done : Bool) (reached : Nat) : Slot :=
  { status := w.status.getD (if done then 2#2 else s.status)
    address := w.address.getD (if done then reached * 2 ^ al else s.address) }

/-- States of the control FSM (dma.py:118-145). -/
inductive Fsm where
  | waitSof
  | transferPixels
  | eof
deriving DecidableEq, Repr

/-- Inputs during one clock: the frame stream (`frame.valid`, `frame.sof`, `frame.pixels`), the
DRAM writer (`_bus_accessor.sink.ready`, `dram_port.wdata.valid`), the `frame_size` register and the
software writes to the slots. -/
structure In (α : Type) where
  valid : Bool
  sof : Bool
  pixels : α
  busReady : Bool
  wdataValid : Bool
  frame_size : Nat
  sw : Nat → SlotWrite

/-- Registers (dma.py:19-20,52,85-86,115). -/
structure State where
  slots : Nat → Slot
  current_slot : Nat
  fsm : Fsm
  current_address : Nat
  mwords_remaining : Nat

/-- Reset state: all slots empty. -/
def reset : State :=
  { slots := fun _ => ⟨0, 0⟩, current_slot := 0, fsm := .waitSof, current_address := 0
    mwords_remaining := 0 }

/-- `_slot_array.address_valid` (dma.py:59). -/
def addressValid (s : State) : Bool := (s.slots s.current_slot).valid

/-- `_slot_array.address_done` (dma.py:140-142). -/
def addressDone {α : Type} (s : State) (x : In α) : Bool := s.fsm = .eof && !x.wdataValid

/-- Slot selection (dma.py:53-54): the assignments are made from the highest to the lowest number
and the last one wins, so the lowest valid slot is taken; without a valid slot nothing changes. -/
def selectSlot (nslots : Nat) (s : State) : Nat :=
  ((List.range nslots).find? fun n => (s.slots n).valid).getD s.current_slot

/-- `frame.ready` (dma.py:120-121,129). -/
def frameReady {α : Type} (s : State) (x : In α) : Bool :=
  match s.fsm with
  | .waitSof => !addressValid s || !x.sof
  | .transferPixels => x.busReady
  | .eof => false

/-- `_bus_accessor.sink.valid` (dma.py:131). -/
def busValid {α : Type} (s : State) (x : In α) : Bool := s.fsm = .transferPixels && x.valid

/-- A word is handed to the DRAM writer at this clock (dma.py:131-133). -/
def writes {α : Type} (s : State) (x : In α) : Bool := busValid s x && x.busReady

/-- Address and data handed to the DRAM writer (dma.py:109-112).  `memory_word` is a concatenation
of copies of `frame.pixels` truncated to its width, i.e. `frame.pixels` (dma.py:101-105). -/
def busWord {α : Type} (s : State) (x : In α) : Nat × α := (s.current_address, x.pixels)

/-- One clock edge (dma.py:51-63,80-99,118-145). -/
def step {α : Type} (nslots aw al : Nat) (s : State) (x : In α) : State :=
  { slots := fun n => (s.slots n).step al (x.sw n)
      (addressDone s x && decide (s.current_slot = n)) s.current_address
    current_slot :=
      if !addressValid s || addressDone s x then selectSlot nslots s else s.current_slot
    fsm :=
      match s.fsm with
      | .waitSof => if addressValid s && x.sof && x.valid then .transferPixels else .waitSof
      | .transferPixels =>
        if x.valid && x.busReady && decide (s.mwords_remaining = 1) then .eof else .transferPixels
      | .eof => if x.wdataValid then .eof else .waitSof
    current_address :=
      if s.fsm = .waitSof then (s.slots s.current_slot).word aw al
      else if writes s x then (s.current_address + 1) % 2 ^ aw
      else s.current_address
    mwords_remaining :=
      if s.fsm = .waitSof then wordsOf aw al x.frame_size
      else if writes s x then (s.mwords_remaining + 2 ^ aw - 1) % 2 ^ aw
      else s.mwords_remaining }

/-! ## Interrupt -/

/-- The `irq` output of the event manager (dma.py:37,44-47,73; `HDMIIn.ev`, input/__init__.py:154).
`EventManager` and `EventSourceLevel` are LiteX library blocks: a level source is pending while its
trigger is 1 and ignores writes to the pending register, and the interrupt is the OR of the pending
sources that are enabled.  `enable n` is bit `n` of the enable register. -/
def irq (nslots : Nat) (s : State) (enable : Nat → Bool) : Bool :=
  (List.range nslots).any fun n => (s.slots n).pending && enable n

end Verif.Dma
