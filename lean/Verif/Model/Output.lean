import Verif.Machine

/-!
# Video output core

Model of `litevideo/output/core.py`.  Unsigned signals are natural numbers; an assignment to a
`w`-bit signal reduces modulo `2^w`.
-/

namespace Verif.Output

/-- `frame_parameter_layout + frame_dma_layout` (output/common.py:11-25): the contents of the
parameter registers.  Each field is below `2^12` (`2^32` for `base`, `length`). -/
structure Params where
  hres : Nat
  hsync_start : Nat
  hsync_end : Nat
  hscan : Nat
  vres : Nat
  vsync_start : Nat
  vsync_end : Nat
  vscan : Nat
  base : Nat
  length : Nat
deriving DecidableEq, Repr

/-! `TimingGenerator` without genlock (output/core.py:125-182). -/
namespace Timing

/-- Inputs during one clock: `sink.valid`, the parameters, `source.ready`. -/
structure In where
  valid : Bool
  p : Params
  ready : Bool

/-- Registers (core.py:136-141; `source.last/hsync/vsync` are registered, lines 161-181). -/
structure State where
  hactive : Bool
  vactive : Bool
  hcounter : Nat
  vcounter : Nat
  last : Bool
  hsync : Bool
  vsync : Bool
deriving DecidableEq, Repr

/-- Reset values. -/
def reset : State :=
  { hactive := false, vactive := false, hcounter := 0, vcounter := 0, last := false,
    hsync := false, vsync := false }

/-- `source.de` (core.py:144-150): 0 unless `sink.valid`. -/
def de (s : State) (valid : Bool) : Bool := valid && (s.hactive && s.vactive)

/-- `sink.ready` (core.py:151). -/
def sinkReady (s : State) (ready : Bool) : Bool := ready && s.last

/-- The statements of core.py:161-181, executed when `sink.valid & source.ready`. -/
def advance (s : State) (p : Params) : State :=
  { hactive :=
      if s.hcounter = p.hres then false
      else if s.hcounter = 0 then true
      else s.hactive
    vactive :=
      if s.vcounter = p.vres then false
      else if s.vcounter = 0 then true
      else s.vactive
    hcounter := if s.hcounter = p.hscan then 0 else (s.hcounter + 1) % 2 ^ 12
    vcounter :=
      if s.hcounter = p.hscan then
        if s.vcounter = p.vscan then 0 else (s.vcounter + 1) % 2 ^ 12
      else s.vcounter
    last := decide (s.hcounter = p.hscan) && decide (s.vcounter = p.vscan)
    hsync :=
      if s.hcounter = p.hsync_end then false
      else if s.hcounter = p.hsync_start then true
      else s.hsync
    vsync :=
      if s.vcounter = p.vsync_end then false
      else if s.vcounter = p.vsync_start then true
      else s.vsync }

/-- One clock edge (core.py:154-182).  Note that an invalid sink does not clear `last`, `hsync`
and `vsync`. -/
def step (s : State) (i : In) : State :=
  if !i.valid then
    { s with hactive := false, vactive := false, hcounter := 0, vcounter := 0 }
  else if i.ready then advance s i.p
  else s

end Timing

/-! `DMAReader` (output/core.py:41-122). -/
namespace DmaReader

/-- FSM states (core.py:76-117); `waitSof` exists with genlock only. -/
inductive Fsm | idle | read | waitSof
deriving DecidableEq, Repr

/-- Registers: FSM state and `offset` (core.py:53,58). -/
structure State where
  fsm : Fsm
  offset : Nat
deriving DecidableEq, Repr

/-- Reset state: `IDLE`, offset 0. -/
def reset : State := { fsm := .idle, offset := 0 }

/-- `base`, `length` in words, `aw` bits (core.py:60-63): `sink.base[shift:]`. -/
def words (aw shift : Nat) (x : Nat) : Nat := x / 2 ^ shift % 2 ^ aw

/-- `dma.sink.valid` (core.py:85). -/
def requests (s : State) : Bool := decide (s.fsm = .read)

/-- `dma.sink.address` (core.py:120). -/
def address (aw shift : Nat) (s : State) (p : Params) : Nat :=
  (words aw shift p.base + s.offset) % 2 ^ aw

/-- `offset == (length - 1)` (core.py:88).  With `length = 0` Verilog compares with
`2^aw - 1`. -/
def atEnd (aw shift : Nat) (s : State) (p : Params) : Bool :=
  decide (s.offset = (words aw shift p.length + 2 ^ aw - 1) % 2 ^ aw)

/-- `sink.ready` (core.py:86-89). -/
def sinkReady (aw shift : Nat) (s : State) (p : Params) (dmaReady : Bool) : Bool :=
  requests s && dmaReady && atEnd aw shift s p

/-- One clock edge without genlock (core.py:75-93). -/
def step (aw shift : Nat) (s : State) (valid : Bool) (p : Params) (dmaReady : Bool) : State :=
  match s.fsm with
  | .idle => { fsm := if valid then .read else .idle, offset := 0 }
  | .read =>
    if dmaReady then
      { fsm := if atEnd aw shift s p then .idle else .read, offset := (s.offset + 1) % 2 ^ aw }
    else s
  | .waitSof => s

/-- One clock edge with genlock (core.py:94-117); `sof` is the registered rising edge of the
genlock vsync (lines 65-73), an input here, and `delayBase` the CSR value. -/
def stepGenlock (aw shift : Nat) (s : State) (valid : Bool) (p : Params) (dmaReady : Bool)
    (sof : Bool) (delayBase : Nat) : State :=
  match s.fsm with
  | .idle => { fsm := if valid then .read else .idle, offset := delayBase % 2 ^ aw }
  | .read =>
    if dmaReady then
      { fsm := if atEnd aw shift s p then .waitSof else .read,
        offset := (s.offset + 1) % 2 ^ aw }
    else s
  | .waitSof => { s with fsm := if sof then .idle else .waitSof }

/-- Reader with genlock, including the vsync edge detector `v`, `v_r`, `sof` (core.py:65-73). -/
structure GenlockState where
  v : Bool
  v_r : Bool
  sof : Bool
  reader : State

/-- Reset state. -/
def genlockReset : GenlockState := { v := false, v_r := false, sof := false, reader := reset }

/-- One clock edge of the reader with genlock (core.py:65-73,94-117). -/
def genlockStep (aw shift : Nat) (s : GenlockState) (valid : Bool) (p : Params) (dmaReady : Bool)
    (vsync : Bool) (delayBase : Nat) : GenlockState :=
  { v := vsync, v_r := s.v, sof := s.v && !s.v_r
    reader := stepGenlock aw shift s.reader valid p dmaReady s.sof delayBase }

end DmaReader

/-! `VideoOutCore` (output/core.py:195-281) without genlock: timing generator, DMA reader, the
LiteDRAM DMA and the joining logic.  The parameter FIFO of `Initiator` (core.py:14-38) appears as
the inputs `pvalid`, `p`. -/
namespace Core

/-- Geometry: bus address width, `log2(bytes per word)`, DMA FIFO depth and whether
`mode == "raw"`. -/
structure Config where
  aw : Nat
  shift : Nat
  depth : Nat
  raw : Bool

/-- Inputs during one clock: `initiator.source.valid` and payload, `source.ready`, whether the
memory port accepts a command (`memReady`), whether it answers the oldest outstanding one
(`answer`), and the memory content at that time. -/
structure In where
  pvalid : Bool
  p : Params
  ready : Bool
  memReady : Bool
  answer : Bool
  mem : Nat → Nat

/-- State.  `pending` (addresses accepted, oldest first) and `fifo` (words waiting) model
`LiteDRAMDMAReader` (external): an in-order reader with reservation, which accepts a request only
if pending + waiting words are fewer than `depth`. -/
structure State where
  timing : Timing.State
  reader : DmaReader.State
  pending : List Nat
  fifo : List Nat

/-- Reset state. -/
def reset : State :=
  { timing := Timing.reset, reader := DmaReader.reset, pending := [], fifo := [] }

/-- `dma.sink.ready` of the LiteDRAM reader. -/
def dmaReady (c : Config) (s : State) (i : In) : Bool :=
  i.memReady && decide (s.pending.length + s.fifo.length < c.depth)

/-- `source.de` (core.py:252). -/
def de (s : State) (i : In) : Bool := Timing.de s.timing i.pvalid

/-- `source.valid` (core.py:233); `timing.source.valid` is `initiator.source.valid`. -/
def valid (s : State) (i : In) : Bool := i.pvalid && (!de s i || !s.fifo.isEmpty)

/-- `source.data` (core.py:255), the head of the DMA FIFO; meaningful when it is not empty. -/
def data (s : State) : Nat := s.fifo.headD 0

/-- `timing.source.ready` (core.py:236-240). -/
def timingReady (s : State) (i : In) : Bool := !i.pvalid || (valid s i && i.ready)

/-- `dma.source.ready` (core.py:236-241). -/
def dataReady (c : Config) (s : State) (i : In) : Bool :=
  !i.pvalid || ((valid s i && i.ready) && (de s i || c.raw))

/-- `initiator.source.ready` (core.py:230). -/
def paramsReady (s : State) (i : In) : Bool := Timing.sinkReady s.timing (timingReady s i)

/-- One clock edge. -/
def step (c : Config) (s : State) (i : In) : State :=
  let accept := DmaReader.requests s.reader && dmaReady c s i
  let pop := dataReady c s i && !s.fifo.isEmpty
  let fifo1 := if pop then s.fifo.tail else s.fifo
  let pending1 := if i.answer then s.pending.tail else s.pending
  { timing := Timing.step s.timing ⟨i.pvalid, i.p, timingReady s i⟩
    reader := DmaReader.step c.aw c.shift s.reader i.pvalid i.p (dmaReady c s i)
    pending := if accept then pending1 ++ [DmaReader.address c.aw c.shift s.reader i.p]
      else pending1
    fifo := if i.answer then fifo1 ++ (s.pending.head?.map i.mem).toList else fifo1 }

end Core

/-! Underflow detection (output/core.py:258-281), clocked by the DRAM port clock. -/
namespace Underflow

/-- Inputs: synchronised `underflow_enable` and `underflow_update`, and `source.valid`. -/
structure In where
  enable : Bool
  update : Bool
  valid : Bool

/-- Registers. -/
structure State where
  counter : Nat
  status : Nat
deriving DecidableEq, Repr

/-- Reset values. -/
def reset : State := { counter := 0, status := 0 }

/-- One clock edge (core.py:270-281). -/
def step (s : State) (i : In) : State :=
  { counter :=
      if i.enable then if !i.valid then (s.counter + 1) % 2 ^ 32 else s.counter else 0
    status := if i.update then s.counter else s.status }

end Underflow
end Verif.Output
