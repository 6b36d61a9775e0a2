/-!
# What a display-data-channel master does and what it should see

Independent of the model: SCL and SDA as functions of the clock number.
-/

namespace Verif.I2c

/-- What a master can do: a clock pulse with a value on SDA (1: released), a START, a STOP. -/
inductive Act where
  | bit (sda : Bool)
  | start
  | stop
deriving DecidableEq

/-- The same with durations.  Pulse: SCL low for `low` clocks, then high for `high` clocks.  START:
SDA pulled low for `hold` clocks while SCL is high.  STOP: SDA released for `hold` clocks while SCL
is high. -/
inductive Ev where
  | pulse (low high : Nat) (sda : Bool)
  | start (hold : Nat)
  | stop (hold : Nat)

/-- Duration in clocks. -/
def Ev.len : Ev → Nat
  | .pulse low high _ => low + high
  | .start hold => hold
  | .stop hold => hold

/-- Without the durations. -/
def Ev.act : Ev → Act
  | .pulse _ _ v => .bit v
  | .start _ => .start
  | .stop _ => .stop

/-- Slow enough for a slave that samples every 64 clocks: two samples while SCL is low, one while it
is high. -/
def Ev.slow : Ev → Prop
  | .pulse low high _ => 128 ≤ low ∧ 64 ≤ high
  | .start hold => 64 ≤ hold
  | .stop hold => 64 ≤ hold

/-- From clock `T` on, SCL is `scl` and the master leaves SDA at `sda`.  During a pulse SDA has its
value from 64 clocks before the rising edge of SCL to the end of the high phase; before that, while
SCL is low, it may be anything. -/
def Does (scl sda : Nat → Bool) : Nat → List Ev → Prop
  | _, [] => True
  | T, .pulse low high v :: r =>
    (∀ t, T ≤ t → t < T + low → scl t = false) ∧
    (∀ t, T ≤ t → T + low ≤ t + 64 → t < T + low → sda t = v) ∧
    (∀ t, T + low ≤ t → t < T + low + high → scl t = true ∧ sda t = v) ∧
    Does scl sda (T + low + high) r
  | T, .start hold :: r =>
    (∀ t, T ≤ t → t < T + hold → scl t = true ∧ sda t = false) ∧
    Does scl sda (T + hold) r
  | T, .stop hold :: r =>
    (∀ t, T ≤ t → t < T + hold → scl t = true ∧ sda t = true) ∧
    Does scl sda (T + hold) r

/-- The line `wire` has, during the whole high phase of each pulse and during each STOP, the value
listed. -/
def Sees (wire : Nat → Bool) : Nat → List Ev → List Bool → Prop
  | _, [], [] => True
  | T, .pulse low high _ :: r, b :: bs =>
    (∀ t, T + low ≤ t → t < T + low + high → wire t = b) ∧ Sees wire (T + low + high) r bs
  | T, .start hold :: r, bs => Sees wire (T + hold) r bs
  | T, .stop hold :: r, b :: bs =>
    (∀ t, T ≤ t → t < T + hold → wire t = b) ∧ Sees wire (T + hold) r bs
  | _, _, _ => False

/-- A byte on the wire, most significant bit first. -/
def byteBits (b : BitVec 8) : List Bool := (List.range 8).map fun i => b.getLsbD (7 - i)

/-- Write address of the EDID memory. -/
def writeAddress : BitVec 8 := 0xA0

/-- Read address of the EDID memory. -/
def readAddress : BitVec 8 := 0xA1

/-- Setting the offset: START, write address, acknowledge, offset, acknowledge. -/
def sendOffset (offset : BitVec 8) : List Act :=
  Act.start :: (byteBits writeAddress ++ [true] ++ byteBits offset ++ [true]).map Act.bit

/-- Reading: START, read address, acknowledge, then bytes, during which the master releases SDA,
each followed by its answer: 0 to go on, 1 to stop. -/
def readBytes (answers : List Bool) : List Act :=
  Act.start :: (byteBits readAddress ++ [true] ++
    answers.flatMap fun a => List.replicate 8 true ++ [a]).map Act.bit

/-- The line while the offset is set: address and offset acknowledged (0). -/
def offsetSeen (offset : BitVec 8) : List Bool :=
  byteBits writeAddress ++ [false] ++ byteBits offset ++ [false]

/-- The bytes and the answers on the line, from the one at `start` on; `data k` is byte `k`. -/
def dataSeen (data : Nat → BitVec 8) : Nat → List Bool → List Bool
  | _, [] => []
  | k, a :: r => byteBits (data k) ++ [a] ++ dataSeen data (k + 1) r

/-- The line during a read: address acknowledged, then the bytes. -/
def readSeen (data : Nat → BitVec 8) (answers : List Bool) : List Bool :=
  byteBits readAddress ++ [false] ++ dataSeen data 0 answers

/-- `h` is the list of line values at the clock pulses since the last START (none: no START yet).
The slave has been addressed: the first seven are the address 0x50, most significant bit first, and
the eighth, the direction, has been seen too. -/
def Addressed (h : Option (List Bool)) : Prop :=
  ∃ bits, h = some bits ∧ 8 ≤ bits.length ∧
    bits.take 7 = [true, false, true, false, false, false, false]

/-- The line differs from what the master puts on it only after the slave has been addressed.  `line`
is the last value of the line: pulling SDA low is a START only if the line was high.  The lists are
the actions of the master and the line values during its pulses and STOPs. -/
def SilentUntilAddressed : Bool → Option (List Bool) → List Act → List Bool → Prop
  | _, _, [], [] => True
  | _, h, .bit v :: r, b :: bs =>
    (b ≠ v → Addressed h) ∧ SilentUntilAddressed b (h.map (· ++ [b])) r bs
  | line, h, .start :: r, bs => SilentUntilAddressed false (if line then some [] else h) r bs
  | _, h, .stop :: r, b :: bs => (b ≠ true → Addressed h) ∧ SilentUntilAddressed b h r bs
  | _, _, _, _ => False

end Verif.I2c
