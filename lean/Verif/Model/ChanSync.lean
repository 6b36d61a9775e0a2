import Verif.Machine

/-!
# Channel synchronisation

Model of `litevideo/input/chansync.py`.  Channels are numbered `0, ..., nchan-1`; per-channel
quantities are functions of the channel number.
-/

namespace Verif.ChanSync

/-- `channel_layout` (input/common.py:12). -/
structure Word where
  raw : BitVec 10
  d : BitVec 8
  c : BitVec 2
  de : Bool
deriving DecidableEq, Repr

/-- The all-zero word: initial memory content. -/
def Word.zero : Word := { raw := 0, d := 0, c := 0, de := false }

/-- `migen.genlib.fifo._inc` (external, used at chansync.py:34,42): increment modulo `depth`. -/
def inc (depth x : Nat) : Nat := if x + 1 = depth then 0 else x + 1

/-! `_SyncBuffer` (chansync.py:14-42). -/
namespace Buffer

/-- Registers and memory (chansync.py:22-24). -/
structure State where
  produce : Nat
  consume : Nat
  storage : Nat → Word

/-- Reset values; a Migen `Memory` without `init` starts at zero. -/
def reset : State := { produce := 0, consume := 0, storage := fun _ => Word.zero }

/-- `dout`: asynchronous read at `consume` (chansync.py:36-41). -/
def dout (s : State) : Word := s.storage s.consume

/-- One clock edge (chansync.py:27-34,42): `din` is always written. -/
def step (depth : Nat) (s : State) (din : Word) (re : Bool) : State :=
  { produce := inc depth s.produce
    consume := if re then inc depth s.consume else s.consume
    storage := fun a => if a = s.produce then din else s.storage a }

end Buffer

/-- Inputs during one clock (chansync.py:47,55-57). -/
structure In where
  valid_i : Bool
  data_in : Nat → Word

/-- State: the buffers and `chan_synced` (chansync.py:48,64). -/
structure State where
  buf : Nat → Buffer.State
  chan_synced : Bool

/-- Reset state. -/
def reset : State := { buf := fun _ => Buffer.reset, chan_synced := false }

/-- `data_out` of channel `i` (chansync.py:69). -/
def dataOut (s : State) (i : Nat) : Word := Buffer.dout (s.buf i)

/-- `is_control` of channel `i` (chansync.py:73). -/
def isControl (s : State) (i : Nat) : Bool := !(dataOut s i).de

/-- `all_control` (chansync.py:80). -/
def allControl (nchan : Nat) (s : State) : Bool := (List.range nchan).all (isControl s)

/-- `some_control` (chansync.py:81). -/
def someControl (nchan : Nat) (s : State) : Bool := (List.range nchan).any (isControl s)

/-- `syncbuffer.re` of channel `i` (chansync.py:74). -/
def re (nchan : Nat) (s : State) (i : Nat) : Bool := !isControl s i || allControl nchan s

/-- One clock edge (chansync.py:67-94). -/
def step (nchan depth : Nat) (s : State) (x : In) : State :=
  { buf := fun i => Buffer.step depth (s.buf i) (x.data_in i) (re nchan s i)
    chan_synced :=
      if !x.valid_i then false
      else if someControl nchan s then (if allControl nchan s then true else false)
      else s.chan_synced }

end Verif.ChanSync
