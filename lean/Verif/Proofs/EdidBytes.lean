import Verif.Proofs.EdidPhase

/-!
# EDID: what the core does on the pulses of a transfer
-/

namespace Verif.Edid

variable (aw : Nat) (mem : Nat → BitVec 8)

/-- The states in which the core rests between two bus edges. -/
def mk (c : Nat) (d : BitVec 8) (r : Bool) (o : Nat) (b v : Bool) (f : Fsm) : Core :=
  { counter := c, din := d, is_read := r, offset := o, dat_r := mem o, data_bit := b, data_drv := v
    fsm := f, drv_reg := zeroDrv f || (v && !b) }

/-- `din` after one more bit. -/
def shl (d : BitVec 8) (s : Bool) : BitVec 8 := (d ++ BitVec.ofBool s).setWidth 8

variable {aw mem} {c : Nat} {d : BitVec 8} {r : Bool} {o : Nat} {b v s : Bool}

theorem fall_rcvAddress (hc : c ≠ 8) (scl : Bool) :
    settle aw mem scl (mk mem c d r o b v .rcvAddress) = mk mem c d r o b v .rcvAddress := by
  apply settle_of_fixed
  simp [mk, quiet, Core.step, Bus.rising, Bus.start, Core.fsmOwn, Core.updateIsRead,
    Core.ocLoad, Core.ocInc, Core.dataDrvEn, Core.dataDrvStop, Core.sdaDrv, zeroDrv, hc]

theorem fall_rcvOffset (hc : c ≠ 8) (scl : Bool) :
    settle aw mem scl (mk mem c d r o b v .rcvOffset) = mk mem c d r o b v .rcvOffset := by
  apply settle_of_fixed
  simp [mk, quiet, Core.step, Bus.rising, Bus.start, Core.fsmOwn, Core.updateIsRead,
    Core.ocLoad, Core.ocInc, Core.dataDrvEn, Core.dataDrvStop, Core.sdaDrv, zeroDrv, hc]

theorem fall_waitStart (scl : Bool) :
    settle aw mem scl (mk mem c d r o b v .waitStart) = mk mem c d r o b v .waitStart := by
  apply settle_of_fixed
  simp [mk, quiet, Core.step, Bus.rising, Bus.start, Core.fsmOwn, Core.updateIsRead,
    Core.ocLoad, Core.ocInc, Core.dataDrvEn, Core.dataDrvStop, Core.sdaDrv, zeroDrv]

theorem rise_waitStart :
    rise aw mem (mk mem c d r o b v .waitStart) s =
      mk mem (if c = 8 then 0 else c + 1) (if c = 8 then d else shl d s) r o b v .waitStart := by
  have : (mk mem c d r o b v .waitStart).step aw mem ⟨true, s, false, s⟩ true =
      mk mem (if c = 8 then 0 else c + 1) (if c = 8 then d else shl d s) r o b v .waitStart := by
    by_cases h8 : c = 8 <;>
    simp [mk, shl, Core.step, Bus.rising, Bus.start, Core.fsmOwn, Core.updateIsRead,
      Core.ocLoad, Core.ocInc, Core.dataDrvEn, Core.dataDrvStop, Core.sdaDrv, zeroDrv, h8]
  rw [rise, this, fall_waitStart]

theorem rise_rcvAddress (hc : c < 7) :
    rise aw mem (mk mem c d r o b v .rcvAddress) s = mk mem (c + 1) (shl d s) r o b v .rcvAddress := by
  have : (mk mem c d r o b v .rcvAddress).step aw mem ⟨true, s, false, s⟩ true =
      mk mem (c + 1) (shl d s) r o b v .rcvAddress := by
    have h8 : c ≠ 8 := by omega
    simp [mk, shl, Core.step, Bus.rising, Bus.start, Core.fsmOwn, Core.updateIsRead,
      Core.ocLoad, Core.ocInc, Core.dataDrvEn, Core.dataDrvStop, Core.sdaDrv, zeroDrv, h8]
  rw [rise, this, fall_rcvAddress (by omega)]

theorem rise_rcvOffset (hc : c < 7) :
    rise aw mem (mk mem c d r o b v .rcvOffset) s = mk mem (c + 1) (shl d s) r o b v .rcvOffset := by
  have : (mk mem c d r o b v .rcvOffset).step aw mem ⟨true, s, false, s⟩ true =
      mk mem (c + 1) (shl d s) r o b v .rcvOffset := by
    have h8 : c ≠ 8 := by omega
    simp [mk, shl, Core.step, Bus.rising, Bus.start, Core.fsmOwn, Core.updateIsRead,
      Core.ocLoad, Core.ocInc, Core.dataDrvEn, Core.dataDrvStop, Core.sdaDrv, zeroDrv, h8]
  rw [rise, this, fall_rcvOffset (by omega)]

theorem step_address7 : (mk mem 7 d r o b v .rcvAddress).step aw mem ⟨true, s, false, s⟩ true =
    mk mem 8 (shl d s) r o b v .rcvAddress := by
  simp [mk, shl, Core.step, Bus.rising, Bus.start, Core.fsmOwn, Core.updateIsRead,
    Core.ocLoad, Core.ocInc, Core.dataDrvEn, Core.dataDrvStop, Core.sdaDrv, zeroDrv]

theorem rise_address_hit (hm : (shl d s).toNat / 2 = 0x50) :
    rise aw mem (mk mem 7 d r o b v .rcvAddress) s =
      mk mem 8 (shl d s) ((shl d s).getLsbD 0) o b v .ackAddress0 := by
  rw [rise, step_address7]
  generalize shl d s = e at hm ⊢
  simp [settle, quiet, mk, Core.step, Bus.rising, Bus.start, Core.fsmOwn, Core.updateIsRead,
    Core.ocLoad, Core.ocInc, Core.dataDrvEn, Core.dataDrvStop, Core.sdaDrv, zeroDrv, hm]

theorem rise_address_miss (hm : (shl d s).toNat / 2 ≠ 0x50) :
    rise aw mem (mk mem 7 d r o b v .rcvAddress) s = mk mem 8 (shl d s) r o b v .waitStart := by
  rw [rise, step_address7]
  generalize shl d s = e at hm ⊢
  simp [settle, quiet, mk, Core.step, Bus.rising, Bus.start, Core.fsmOwn, Core.updateIsRead,
    Core.ocLoad, Core.ocInc, Core.dataDrvEn, Core.dataDrvStop, Core.sdaDrv, zeroDrv, hm]

theorem rise_offset :
    rise aw mem (mk mem 7 d r o b v .rcvOffset) s =
      mk mem 8 (shl d s) r ((shl d s).toNat % 2 ^ aw) b v .ackOffset0 := by
  have : (mk mem 7 d r o b v .rcvOffset).step aw mem ⟨true, s, false, s⟩ true =
      mk mem 8 (shl d s) r o b v .rcvOffset := by
    simp [mk, shl, Core.step, Bus.rising, Bus.start, Core.fsmOwn, Core.updateIsRead,
      Core.ocLoad, Core.ocInc, Core.dataDrvEn, Core.dataDrvStop, Core.sdaDrv, zeroDrv]
  rw [rise, this]
  generalize shl d s = e
  simp [settle, quiet, mk, Core.step, Bus.rising, Bus.start, Core.fsmOwn, Core.updateIsRead,
    Core.ocLoad, Core.ocInc, Core.dataDrvEn, Core.dataDrvStop, Core.sdaDrv, zeroDrv]

theorem fall_ackAddress0 : settle aw mem false (mk mem c d r o b v .ackAddress0) =
    mk mem c d r o b v .ackAddress1 := by
  simp [settle, quiet, mk, Core.step, Bus.rising, Bus.start, Core.fsmOwn, Core.updateIsRead,
    Core.ocLoad, Core.ocInc, Core.dataDrvEn, Core.dataDrvStop, Core.sdaDrv, zeroDrv]

theorem fall_ackOffset0 : settle aw mem false (mk mem c d r o b v .ackOffset0) =
    mk mem c d r o b v .ackOffset1 := by
  simp [settle, quiet, mk, Core.step, Bus.rising, Bus.start, Core.fsmOwn, Core.updateIsRead,
    Core.ocLoad, Core.ocInc, Core.dataDrvEn, Core.dataDrvStop, Core.sdaDrv, zeroDrv]

theorem rise_ackAddress1 : rise aw mem (mk mem 8 d r o b v .ackAddress1) s =
    mk mem 0 d r o b v .ackAddress2 := by
  simp [rise, settle, quiet, mk, Core.step, Bus.rising, Bus.start, Core.fsmOwn, Core.updateIsRead,
    Core.ocLoad, Core.ocInc, Core.dataDrvEn, Core.dataDrvStop, Core.sdaDrv, zeroDrv]

theorem rise_ackOffset1 : rise aw mem (mk mem 8 d r o b v .ackOffset1) s =
    mk mem 0 d r o b v .ackOffset2 := by
  simp [rise, settle, quiet, mk, Core.step, Bus.rising, Bus.start, Core.fsmOwn, Core.updateIsRead,
    Core.ocLoad, Core.ocInc, Core.dataDrvEn, Core.dataDrvStop, Core.sdaDrv, zeroDrv]

theorem fall_ackAddress2_write : settle aw mem false (mk mem 0 d false o b v .ackAddress2) =
    mk mem 0 d false o b v .rcvOffset := by
  simp [settle, quiet, mk, Core.step, Bus.rising, Bus.start, Core.fsmOwn, Core.updateIsRead,
    Core.ocLoad, Core.ocInc, Core.dataDrvEn, Core.dataDrvStop, Core.sdaDrv, zeroDrv]

theorem fall_ackAddress2_read : settle aw mem false (mk mem 0 d true o b v .ackAddress2) =
    mk mem 0 d true o ((mem o).getLsbD 7) true .read := by
  simp [settle, quiet, mk, Core.step, Bus.rising, Bus.start, Core.fsmOwn, Core.updateIsRead,
    Core.ocLoad, Core.ocInc, Core.dataDrvEn, Core.dataDrvStop, Core.sdaDrv, zeroDrv]

theorem fall_ackOffset2 : settle aw mem false (mk mem 0 d r o b v .ackOffset2) =
    mk mem 0 d r o b v .rcvAddress := by
  simp [settle, quiet, mk, Core.step, Bus.rising, Bus.start, Core.fsmOwn, Core.updateIsRead,
    Core.ocLoad, Core.ocInc, Core.dataDrvEn, Core.dataDrvStop, Core.sdaDrv, zeroDrv]

theorem fall_read (hc : c ≠ 8) : settle aw mem false (mk mem c d r o b v .read) =
    mk mem c d r o ((mem o).getLsbD (7 - c)) true .read := by
  simp [settle, quiet, mk, Core.step, Bus.rising, Bus.start, Core.fsmOwn, Core.updateIsRead,
    Core.ocLoad, Core.ocInc, Core.dataDrvEn, Core.sdaDrv, zeroDrv, hc]

theorem rise_read (hc : c ≠ 8) : rise aw mem (mk mem c d r o b v .read) s =
    mk mem (c + 1) (shl d s) r o b v .read := by
  unfold shl
  simp [rise, settle, quiet, mk, Core.step, Bus.rising, Bus.start, Core.fsmOwn, Core.updateIsRead,
    Core.ocLoad, Core.ocInc, Core.dataDrvEn, Core.dataDrvStop, Core.sdaDrv, zeroDrv, hc]

theorem fall_read8 : settle aw mem false (mk mem 8 d r o b v .read) =
    mk mem 8 d r o b false .ackRead := by
  simp [settle, quiet, mk, Core.step, Bus.rising, Bus.start, Core.fsmOwn, Core.updateIsRead,
    Core.ocLoad, Core.ocInc, Core.dataDrvEn, Core.dataDrvStop, Core.sdaDrv, zeroDrv]

theorem rise_ackRead : rise aw mem (mk mem 8 d r o b v .ackRead) s =
    mk mem 0 d r ((o + 1) % 2 ^ aw) b v (if s then .waitStart else .read) := by
  cases s <;>
  simp [rise, settle, quiet, mk, Core.step, Bus.rising, Bus.start, Core.fsmOwn, Core.updateIsRead,
    Core.ocLoad, Core.ocInc, Core.dataDrvEn, Core.dataDrvStop, Core.sdaDrv, zeroDrv]

end Verif.Edid
