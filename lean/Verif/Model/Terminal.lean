import Verif.Machine

/-!
# Text terminal

Model of `litevideo/terminal/core.py`: the Wishbone side (system clock), the display side (`vga`
clock) and the memory between them.  Signals of width `w` that are only compared and incremented
are naturals below `2^w`.

A Migen synchronous read port registers the address; `dat_r` is the memory content at that
registered address (`memadr`).  Addresses from 8896 on have no storage; the model ignores writes to
them, and reads there are only made while the picture is blank.
-/

namespace Verif.Terminal

/-- A byte. -/
abbrev Byte := BitVec 8

/-- Contents of the memory (core.py:75). -/
abbrev Mem := Nat → Byte

/-- `depth` (core.py:75). -/
def depth : Nat := 8896

/-- `read_ram_init_file` (core.py:45-56): `none` stands for the empty file name, `some data` for
the file's contents; the result is `none` if `ValueError` is raised. -/
def readInit (file : Option (List Byte)) (size : Nat) : Option (List Byte) :=
  match file with
  | none => some (List.replicate size 0)
  | some data => if data.length ≠ size then none else some data

/-- `ram_init` (core.py:70-72): the screen, then the font; `none` if the constructor fails. -/
def ramInit (screen font : Option (List Byte)) : Option (List Byte) :=
  match readInit screen 4800, readInit font 4096 with
  | some s, some f => some (s ++ f)
  | _, _ => none

/-- The memory initialised with `init` (core.py:75). -/
def memOf (init : List Byte) : Mem := fun a => init.getD a 0

/-! ## Wishbone side -/

/-- Signals driven by the bus master (core.py:61). -/
structure BusIn where
  cyc : Bool
  stb : Bool
  we : Bool
  adr : Nat
  dat_w : Byte
deriving DecidableEq, Repr

/-- Registers of the system clock domain (core.py:64-67,77-89): `bus.ack`, `wrport.we`,
`wrport.dat_w` and the port's address register. -/
structure Bus where
  ack : Bool
  we : Bool
  dat_w : Byte
  memadr : Nat
deriving DecidableEq, Repr

/-- Reset values. -/
def Bus.reset : Bus := { ack := false, we := false, dat_w := 0, memadr := 0 }

/-- `wrport.adr` (core.py:92): 14 bits of the bus address. -/
def portAdr (x : BusIn) : Nat := x.adr % 2 ^ 14

/-- One system clock edge (core.py:64-67,83-89). -/
def Bus.step (s : Bus) (x : BusIn) : Bus :=
  { ack := x.cyc && x.stb && !s.ack
    we := x.cyc && x.stb && x.we && !s.ack
    dat_w := if x.cyc && x.stb && x.we && !s.ack then x.dat_w else s.dat_w
    memadr := portAdr x }

/-- The memory after a system clock edge: `wrport` writes the registered data to the address that
is on the bus now (core.py:77-93). -/
def Bus.write (s : Bus) (x : BusIn) (m : Mem) : Mem :=
  if s.we ∧ portAdr x < depth then fun a => if a = portAdr x then s.dat_w else m a else m

/-- `bus.dat_r` (core.py:93). -/
def Bus.datR (s : Bus) (m : Mem) : Byte := m s.memadr

/-! ## Display side -/

/-- `palette` (core.py:155-158). -/
def palette : List (BitVec 24) :=
  [0x000000, 0x0000aa, 0x00aa00, 0x00aaaa, 0xaa0000, 0xaa00aa, 0xaa5500, 0xaaaaaa,
   0x555555, 0x5555ff, 0x55ff55, 0x55ffff, 0xff5555, 0xff55ff, 0xffff55, 0xffffff]

/-- `color_lookup` (core.py:159-162). -/
def lookup (i : BitVec 4) : BitVec 24 := palette.getD i.toNat 0

/-- Registers of the `vga` clock domain (core.py:99-152), `rdport.adr` and the read port's address
register. -/
structure Vga where
  red : Byte
  green : Byte
  blue : Byte
  hsync : Bool
  vsync : Bool
  pixel : Nat
  line : Nat
  text_addr : Nat
  text_start : Nat
  fline : Nat
  fx : Nat
  fbyte : Byte
  next_byte : Byte
  fg : BitVec 24
  next_fg : BitVec 24
  bg : BitVec 24
  color : Byte
  color_index : BitVec 4
  adr : Nat
  memadr : Nat
deriving DecidableEq, Repr

/-- Reset values. -/
def Vga.reset : Vga :=
  { red := 0, green := 0, blue := 0, hsync := false, vsync := false, pixel := 0, line := 0,
    text_addr := 0, text_start := 0, fline := 0, fx := 0, fbyte := 0, next_byte := 0, fg := 0,
    next_fg := 0, bg := 0, color := 0, color_index := 0, adr := 0, memadr := 0 }

/-- The picture is shown (core.py:171-172). -/
def Vga.shown (s : Vga) : Bool :=
  decide (31 ≤ s.line) && decide (s.line < 511) && decide (144 ≤ s.pixel) && decide (s.pixel < 784)

/-- The colour of the current pixel (core.py:173-181). -/
def Vga.colour (s : Vga) : BitVec 24 :=
  if s.shown then (if s.fbyte.getLsbD 7 then s.fg else s.bg) else 0

/-- One `vga` clock edge (core.py:164-263), statement by statement; of several assignments to a
register the last one wins. -/
def Vga.step (s : Vga) (m : Mem) : Vga :=
  let dat_r := m s.memadr
  let lineEnd := decide (s.pixel = 800)
  { red := s.colour.extractLsb' 16 8
    green := s.colour.extractLsb' 8 8
    blue := s.colour.extractLsb' 0 8
    fbyte := if s.fx = 7 then s.next_byte else if s.shown then s.fbyte <<< 1 else s.fbyte
    adr :=
      if s.fx = 3 then (4800 + 16 * dat_r.toNat + s.fline) % 2 ^ 14
      else if s.fx = 1 ∨ s.fx = 2 then s.text_addr % 2 ^ 14 else s.adr
    memadr := s.adr
    text_addr :=
      if s.pixel = 135 then s.text_start
      else if s.fx = 1 ∨ s.fx = 2 then (s.text_addr + 1) % 2 ^ 16 else s.text_addr
    color := if s.fx = 4 then dat_r else s.color
    next_byte := if s.fx = 5 then dat_r else s.next_byte
    color_index :=
      if s.fx = 6 then s.color.extractLsb' 4 4
      else if s.fx = 5 then s.color.extractLsb' 0 4 else s.color_index
    next_fg := if s.fx = 6 then lookup s.color_index else s.next_fg
    bg := if s.fx = 7 then lookup s.color_index else s.bg
    fg := if s.fx = 7 then s.next_fg else s.fg
    fx := if s.pixel = 135 then 0 else if s.fx = 7 then 0 else (s.fx + 1) % 2 ^ 3
    pixel := if lineEnd then 0 else (s.pixel + 1) % 2 ^ 10
    hsync := if s.pixel < 96 then false else if s.pixel < 144 then true else s.hsync
    line := if s.line = 521 then 0 else if lineEnd then (s.line + 1) % 2 ^ 10 else s.line
    fline :=
      if s.line = 30 then 0
      else if lineEnd then (if s.fline = 15 then 0 else (s.fline + 1) % 2 ^ 4) else s.fline
    text_start :=
      if s.line = 30 then 0
      else if lineEnd ∧ s.fline = 15 then (s.text_start + 2 * 80) % 2 ^ 16 else s.text_start
    vsync := if s.line < 2 then false else if s.line < 31 then true else s.vsync }

/-! ## Both sides -/

/-- One instant: clock edges and the bus signals. -/
structure In where
  sysEdge : Bool
  vgaEdge : Bool
  bus : BusIn

/-- State of the terminal. -/
structure State where
  bus : Bus
  vga : Vga
  mem : Mem

/-- Reset state with initial memory contents. -/
def reset (m : Mem) : State := { bus := Bus.reset, vga := Vga.reset, mem := m }

/-- One instant.  A read in the same instant as a write sees the old contents; this case is only
reached when software writes to a byte that is being displayed. -/
def step (s : State) (x : In) : State :=
  { bus := if x.sysEdge then s.bus.step x.bus else s.bus
    vga := if x.vgaEdge then s.vga.step s.mem else s.vga
    mem := if x.sysEdge then s.bus.write x.bus s.mem else s.mem }

end Verif.Terminal
