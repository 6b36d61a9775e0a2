import Verif.Model.Edid
import Mathlib.Logic.Function.Iterate
import Mathlib.Tactic.Set

/-!
# EDID: from clocks to bus samples
-/

namespace Verif.Edid

variable (aw : Nat) (mem : Nat → BitVec 8)

/-- A clock without a bus edge. -/
def quiet (scl : Bool) (c : Core) : Core :=
  c.step aw mem { scl_i := scl, sda_i := false, scl_r := scl, sda_r := false } true

theorem step_quiet (scl sda : Bool) (c : Core) :
    c.step aw mem { scl_i := scl, sda_i := sda, scl_r := scl, sda_r := sda } true =
      quiet aw mem scl c := by
  cases scl <;> cases sda <;> simp [quiet, Core.step, Bus.rising, Bus.start, Core.fsmOwn,
    Core.ocInc, Core.dataDrvEn, Core.dataDrvStop]

/-- What remains after the reaction to a bus edge has died down. -/
def settle (scl : Bool) (c : Core) : Core := (quiet aw mem scl)^[8] c

theorem settle_fixed (scl : Bool) (c : Core) :
    quiet aw mem scl (settle aw mem scl c) = settle aw mem scl c := by
  obtain ⟨counter, din, is_read, offset, dat_r, data_bit, data_drv, fsm, drv_reg⟩ := c
  by_cases h8 : counter = 8 <;> by_cases hm : din.toNat / 2 = 0x50 <;> cases scl <;>
    cases is_read <;> cases fsm <;>
    simp [settle, quiet, Core.step, Bus.rising, Bus.start, Core.fsmOwn, Core.updateIsRead,
      Core.ocLoad, Core.ocInc, Core.dataDrvEn, Core.dataDrvStop, Core.sdaDrv, zeroDrv, h8, hm]
end Verif.Edid
