import Verif.Props.Edid

/-!
# C125: hot plug
-/

namespace Verif.Props

/-- **C125** The hot-plug register shows what the pad showed two clocks before, with its polarity, and 1 if
there is no pad. -/
theorem C125_notif (hasPad inverted : Bool) (pad : Nat → Bool) (t : Nat) :
    Edid.Hpd.csr hasPad (trace (Edid.Hpd.step inverted) Edid.Hpd.reset pad (t + 2)) =
      (!hasPad || (pad t != inverted)) := by
  cases hasPad
  · rfl
  · show (if inverted then !pad t else pad t) = (pad t != inverted)
    cases inverted <;> cases pad t <;> rfl

/-- With the enable off the state machine is idle. -/
theorem disabled_idle {aw : Nat} {mem : Nat → BitVec 8} {x : Nat → Edid.In} {t0 : Nat}
    (hoff : ∀ t, t0 ≤ t → (x t).hpd_en = false) (t : Nat) (ht : t0 < t) :
    (trace (Edid.step aw mem) Edid.reset x t).core.fsm = .waitStart := by
  obtain ⟨t, rfl⟩ : ∃ u, t = u + 1 := ⟨t - 1, by omega⟩
  show (if !(x t).hpd_en then Edid.Fsm.waitStart else _) = _
  rw [hoff t (by omega)]
  rfl

/-- **C125** While the hot-plug enable is off EDID takes part in nothing: from two clocks after it is switched
off its SDA output does not change any more, whatever master and lines do. -/
theorem C125_frozen (aw : Nat) (mem : Nat → BitVec 8) (x : Nat → Edid.In) (t0 t : Nat)
    (hoff : ∀ t, t0 ≤ t → (x t).hpd_en = false) (ht : t0 + 2 ≤ t) :
    sdaPulled aw mem x t = sdaPulled aw mem x (t0 + 2) := by
  have key : ∀ d, (trace (Edid.step aw mem) Edid.reset x (t0 + 1 + d)).core.data_drv =
        (trace (Edid.step aw mem) Edid.reset x (t0 + 1)).core.data_drv ∧
      (trace (Edid.step aw mem) Edid.reset x (t0 + 1 + d)).core.data_bit =
        (trace (Edid.step aw mem) Edid.reset x (t0 + 1)).core.data_bit := by
    intro d
    induction d with
    | zero => exact ⟨rfl, rfl⟩
    | succ d ih =>
      have hf := disabled_idle (aw := aw) (mem := mem) hoff (t0 + 1 + d) (by omega)
      rw [← ih.1, ← ih.2, ← Nat.add_assoc]
      simp [trace, Edid.step, Edid.Core.step, Edid.Core.dataDrvEn, Edid.Core.dataDrvStop, hf]
  have drv : ∀ d, sdaPulled aw mem x (t0 + 2 + d) =
      ((trace (Edid.step aw mem) Edid.reset x (t0 + 1)).core.data_drv &&
        !(trace (Edid.step aw mem) Edid.reset x (t0 + 1)).core.data_bit) := by
    intro d
    have hf := disabled_idle (aw := aw) (mem := mem) hoff (t0 + 1 + d) (by omega)
    rw [← (key d).1, ← (key d).2, show t0 + 2 + d = t0 + 1 + d + 1 by omega]
    show Edid.Core.sdaDrv (trace (Edid.step aw mem) Edid.reset x (t0 + 1 + d)).core = _
    simp [Edid.Core.sdaDrv, Edid.zeroDrv, hf]
  obtain ⟨d, rfl⟩ : ∃ d, t = t0 + 2 + d := ⟨t - (t0 + 2), by omega⟩
  rw [drv d, ← Nat.add_zero (t0 + 2), drv 0]

/-- **C125** As long as the hot-plug enable has not been switched on since reset, EDID leaves SDA alone. -/
theorem C125_silent (aw : Nat) (mem : Nat → BitVec 8) (x : Nat → Edid.In) (T t : Nat)
    (hoff : ∀ t, t < T → (x t).hpd_en = false) (ht : t ≤ T + 1) : sdaPulled aw mem x t = false := by
  have key : ∀ t, t ≤ T → (trace (Edid.step aw mem) Edid.reset x t).core.data_drv = false ∧
      (trace (Edid.step aw mem) Edid.reset x t).core.fsm = .waitStart ∧
      (trace (Edid.step aw mem) Edid.reset x t).core.drv_reg = false := by
    intro t
    induction t with
    | zero => exact fun _ => ⟨rfl, rfl, rfl⟩
    | succ t ih =>
      intro h
      obtain ⟨h1, h2, h3⟩ := ih (by omega)
      refine ⟨?_, ?_, ?_⟩
      · simp [trace, Edid.step, Edid.Core.step, Edid.Core.dataDrvEn, h1, h2]
      · simp [trace, Edid.step, Edid.Core.step, hoff t (by omega)]
      · simp [trace, Edid.step, Edid.Core.step, Edid.Core.sdaDrv, Edid.zeroDrv, h1, h2]
  rcases Nat.lt_or_ge T t with h | h
  · obtain rfl : t = T + 1 := by omega
    obtain ⟨h1, h2, -⟩ := key T (by omega)
    show (trace (Edid.step aw mem) Edid.reset x (T + 1)).core.drv_reg = false
    simp [trace, Edid.step, Edid.Core.step, Edid.Core.sdaDrv, Edid.zeroDrv, h1, h2]
  · exact (key t h).2.2

/-- A master that is active while the enable is off: the run of C20 with the enable off from the start; with
the enable on, the slave acknowledges at clock 1900. -/
def deafRun (on : Bool) (t : Nat) : Edid.In := { hotUnplug t with hpd_en := on }

example : (∀ t, (deafRun false t).hpd_en = false) ∧ sdaPulled 8 (fun _ => 0) (deafRun true) 1900 = true :=
  ⟨fun _ => rfl, by decide +kernel⟩

/-- `C125_frozen` applies to the run of C20 from clock 2100 on. -/
example : ∀ t, 2100 ≤ t → (hotUnplug t).hpd_en = false := fun t ht => by
  simp [hotUnplug]; omega

end Verif.Props
