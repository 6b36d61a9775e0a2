import Verif.Proofs.EdidTransfer

/-!
# EDID: which states drive SDA
-/

namespace Verif.Edid

open Verif.I2c

variable {aw : Nat} {mem : Nat → BitVec 8}

theorem addressed_snoc {h : Option (List Bool)} (ha : Addressed h) (b : Bool) :
    Addressed (h.map (· ++ [b])) := by
  obtain ⟨bits, rfl, h8, h7⟩ := ha
  refine ⟨bits ++ [b], rfl, by simp; omega, ?_⟩
  rw [List.take_append_of_le_length (by omega), h7]

/-- The bits of an address byte. -/
theorem address_bits (byte : BitVec 8) (h : byte.toNat / 2 = 0x50) :
    (byteBits byte).take 7 = [true, false, true, false, false, false, false] := by
  have : byte = 0xA0 ∨ byte = 0xA1 := by
    have := byte.isLt
    have h2 : byte.toNat = 0xA0 ∨ byte.toNat = 0xA1 := by omega
    rcases h2 with h2 | h2
    · exact .inl (BitVec.eq_of_toNat_eq h2)
    · exact .inr (BitVec.eq_of_toNat_eq h2)
  rcases this with rfl | rfl <;> rfl

theorem shl_list (ws : List Bool) (hw : ws.length = 8) (d : BitVec 8) :
    byteBits (ws.foldl shl d) = ws := by
  match ws, hw with
  | [a7, a6, a5, a4, a3, a2, a1, a0], _ =>
    simp only [byteBits, List.range, List.range.loop, List.map_cons, List.map_nil, List.foldl_cons,
      List.foldl_nil]
    simp only [List.cons.injEq, and_true]
    refine ⟨?_, ?_, ?_, ?_, ?_, ?_, ?_, ?_⟩ <;>
      repeat first | rw [shl_zero] | rw [shl_succ _ _ _ (by omega)]

/-- Where in a transfer the core is, between two actions of the master.  `h`: the line values since
the last START. -/
def Place (h : Option (List Bool)) (n : Nat) (d : BitVec 8) : Fsm → Prop
  | .waitStart => n ≤ 8
  | .rcvAddress => n ≤ 7 ∧
    (Addressed h ∨ ∃ bits d0, h = some bits ∧ bits.length = n ∧ d = bits.foldl shl d0)
  | .ackAddress0 => n = 8 ∧ Addressed h
  | .ackAddress2 => n = 0 ∧ Addressed h
  | .rcvOffset => n ≤ 7 ∧ Addressed h
  | .ackOffset0 => n = 8 ∧ Addressed h
  | .ackOffset2 => n = 0 ∧ Addressed h
  | .read => n ≤ 8 ∧ Addressed h
  | _ => False

/-- States reached by a master that is slow enough. -/
def Good (mem : Nat → BitVec 8) (h : Option (List Bool)) (c : Core) : Prop :=
  ∃ n d r o b v f, c = mk mem n d r o b v f ∧ (f ≠ .read → (v && !b) = false) ∧ Place h n d f

theorem good_bit {h : Option (List Bool)} {c : Core} (hg : Good mem h c) (s w : Bool) :
    (seen aw mem c w ≠ w → Addressed h) ∧
    Good mem (h.map (· ++ [seen aw mem c w])) (evCore aw mem c s (.bit w)) := by
  obtain ⟨n, d, r, o, b, v, f, rfl, nd, hp⟩ := hg
  cases f with
  | waitStart =>
    have nd := nd (by simp)
    have hs : seen aw mem (mk mem n d r o b v .waitStart) w = w := by
      unfold seen; rw [fall_waitStart]; simp [mk, zeroDrv, nd]
    refine ⟨fun h => absurd hs h, ?_⟩
    unfold evCore
    simp only [fall_waitStart, rise_waitStart]
    refine ⟨_, _, r, o, b, v, _, rfl, fun _ => nd, ?_⟩
    show _ ≤ 8
    have : n ≤ 8 := hp
    split <;> omega
  | rcvAddress =>
    obtain ⟨h7, hh⟩ := hp
    have nd := nd (by simp)
    have hf := fall_rcvAddress (aw := aw) (mem := mem) (d := d) (r := r) (o := o) (b := b) (v := v)
      (c := n) (by omega) false
    have hs : seen aw mem (mk mem n d r o b v .rcvAddress) w = w := by
      unfold seen; rw [hf]; simp [mk, zeroDrv, nd]
    refine ⟨fun h => absurd hs h, ?_⟩
    unfold evCore
    simp only [hf, hs]
    rcases Nat.lt_or_eq_of_le h7 with h7 | rfl
    · rw [rise_rcvAddress h7]
      refine ⟨_, _, r, o, b, v, _, rfl, fun _ => nd, by omega, ?_⟩
      rcases hh with ha | ⟨bits, d0, rfl, hl, rfl⟩
      · exact .inl (addressed_snoc ha _)
      · exact .inr ⟨bits ++ [w], d0, rfl, by simp [hl], by simp⟩
    · by_cases hm : (shl d w).toNat / 2 = 0x50
      · rw [rise_address_hit hm]
        refine ⟨_, _, _, o, b, v, _, rfl, fun _ => nd, rfl, ?_⟩
        rcases hh with ha | ⟨bits, d0, rfl, hl, rfl⟩
        · exact addressed_snoc ha _
        · refine ⟨bits ++ [w], rfl, by simp [hl], ?_⟩
          have e : shl (bits.foldl shl d0) w = (bits ++ [w]).foldl shl d0 := by simp
          rw [e] at hm
          have := address_bits _ hm
          rwa [shl_list _ (by simp [hl])] at this
      · rw [rise_address_miss hm]
        exact ⟨_, _, _, o, b, v, _, rfl, fun _ => nd, Nat.le_refl 8⟩
  | ackAddress0 =>
    obtain ⟨rfl, ha⟩ := hp
    refine ⟨fun _ => ha, ?_⟩
    unfold evCore
    simp only [fall_ackAddress0, rise_ackAddress1]
    exact ⟨_, _, r, o, b, v, _, rfl, fun _ => nd (by simp), rfl, addressed_snoc ha _⟩
  | ackAddress1 => exact hp.elim
  | ackAddress2 =>
    obtain ⟨rfl, ha⟩ := hp
    refine ⟨fun _ => ha, ?_⟩
    unfold evCore
    cases r with
    | false =>
      simp only [fall_ackAddress2_write]
      rw [rise_rcvOffset (by omega)]
      exact ⟨_, _, _, o, b, v, _, rfl, fun _ => nd (by simp), by omega, addressed_snoc ha _⟩
    | true =>
      simp only [fall_ackAddress2_read]
      rw [rise_read (by omega)]
      exact ⟨_, _, _, o, _, _, _, rfl, fun h => absurd rfl h, by omega, addressed_snoc ha _⟩
  | rcvOffset =>
    obtain ⟨h7, ha⟩ := hp
    refine ⟨fun _ => ha, ?_⟩
    have hf := fall_rcvOffset (aw := aw) (mem := mem) (d := d) (r := r) (o := o) (b := b) (v := v)
      (c := n) (by omega) false
    unfold evCore
    simp only [hf]
    rcases Nat.lt_or_eq_of_le h7 with h7 | rfl
    · rw [rise_rcvOffset h7]
      exact ⟨_, _, r, o, b, v, _, rfl, fun _ => nd (by simp), by omega, addressed_snoc ha _⟩
    · rw [rise_offset]
      exact ⟨_, _, r, _, b, v, _, rfl, fun _ => nd (by simp), rfl, addressed_snoc ha _⟩
  | ackOffset0 =>
    obtain ⟨rfl, ha⟩ := hp
    refine ⟨fun _ => ha, ?_⟩
    unfold evCore
    simp only [fall_ackOffset0, rise_ackOffset1]
    exact ⟨_, _, r, o, b, v, _, rfl, fun _ => nd (by simp), rfl, addressed_snoc ha _⟩
  | ackOffset1 => exact hp.elim
  | ackOffset2 =>
    obtain ⟨rfl, ha⟩ := hp
    refine ⟨fun _ => ha, ?_⟩
    unfold evCore
    simp only [fall_ackOffset2]
    rw [rise_rcvAddress (by omega)]
    exact ⟨_, _, r, o, b, v, _, rfl, fun _ => nd (by simp), by omega, .inl (addressed_snoc ha _)⟩
  | read =>
    obtain ⟨h8, ha⟩ := hp
    refine ⟨fun _ => ha, ?_⟩
    unfold evCore
    rcases Nat.lt_or_eq_of_le h8 with h8 | rfl
    · have hf := fall_read (aw := aw) (mem := mem) (c := n) (d := d) (r := r) (o := o) (b := b)
        (v := v) (by omega)
      simp only [hf]
      rw [rise_read (by omega)]
      exact ⟨_, _, r, o, _, _, _, rfl, fun h => absurd rfl h, by omega, addressed_snoc ha _⟩
    · simp only [fall_read8, rise_ackRead]
      refine ⟨_, _, r, _, b, false, _, rfl, fun _ => rfl, ?_⟩
      cases seen aw mem (mk mem 8 d r o b v .read) w with
      | true => exact Nat.zero_le 8
      | false => exact ⟨Nat.zero_le 8, addressed_snoc ha _⟩
  | ackRead => exact hp.elim

theorem good_start {h : Option (List Bool)} {c : Core} (hg : Good mem h c) (s : Bool)
    (hq : quiet aw mem true c = c) (hd : s = true → c.drv_reg = false) :
    Good mem (if s then some [] else h) (evCore aw mem c s .start) := by
  cases s with
  | false =>
    have : evCore aw mem c false .start = c := by
      show settle aw mem true (c.step aw mem ⟨true, false, true, false⟩ true) = c
      rw [step_quiet, settle_quiet, settle_of_fixed hq]
    rw [this]
    exact hg
  | true =>
    rw [start_mk c hq]
    have nd : (c.data_drv && !c.data_bit) = false := by
      have hd := hd rfl
      rw [drv_reg_of_fixed hq] at hd
      unfold Core.sdaDrv at hd
      cases h : zeroDrv c.fsm with
      | true => rw [h] at hd; simp at hd
      | false => rw [h] at hd; exact hd
    exact ⟨_, _, _, _, _, _, _, rfl, fun _ => nd, by omega, .inr ⟨[], c.din, rfl, rfl, rfl⟩⟩

theorem good_drives {h : Option (List Bool)} {c : Core} (hg : Good mem h c)
    (hd : c.drv_reg = true) : Addressed h := by
  obtain ⟨n, d, r, o, b, v, f, rfl, nd, hp⟩ := hg
  have hd' : (zeroDrv f || (v && !b)) = true := hd
  cases f with
  | read => exact hp.2
  | ackAddress2 => exact hp.2
  | ackOffset2 => exact hp.2
  | ackAddress1 => exact hp.elim
  | ackOffset1 => exact hp.elim
  | _ => rw [nd (by simp)] at hd'; cases hd'

/-- The invariant between two actions. -/
structure Inv (aw : Nat) (mem : Nat → BitVec 8) (h : Option (List Bool)) (c : Core) (s : Bool) :
    Prop where
  good : Good mem h c
  fixed : quiet aw mem true c = c
  free : s = true → c.drv_reg = false

theorem inv_bit {h : Option (List Bool)} {c : Core} {s : Bool} (hi : Inv aw mem h c s) (w : Bool) :
    Inv aw mem (h.map (· ++ [seen aw mem c w])) (evCore aw mem c s (.bit w)) (seen aw mem c w) := by
  refine ⟨(good_bit hi.good s w).2, settle_fixed aw mem true _, ?_⟩
  intro hs
  show (rise aw mem _ _).drv_reg = false
  rw [rise_drv, ← drv_reg_of_fixed (settle_fixed aw mem false c)]
  have : (w && !(settle aw mem false c).drv_reg) = true := hs
  cases hd : (settle aw mem false c).drv_reg with
  | false => rfl
  | true => rw [hd, Bool.not_true, Bool.and_false] at this; cases this

theorem inv_start {h : Option (List Bool)} {c : Core} {s : Bool} (hi : Inv aw mem h c s) :
    Inv aw mem (if s then some [] else h) (evCore aw mem c s .start) false :=
  ⟨good_start hi.good s hi.fixed hi.free, settle_fixed aw mem true _, fun h => by cases h⟩

theorem inv_stop {h : Option (List Bool)} {c : Core} {s : Bool} (hi : Inv aw mem h c s) :
    Inv aw mem h c (!c.drv_reg) :=
  ⟨hi.good, hi.fixed, by simp⟩

theorem silent {h : Option (List Bool)} {c : Core} {s : Bool} (hi : Inv aw mem h c s)
    (acts : List Act) : SilentUntilAddressed s h acts (outs aw mem (c, s) acts) := by
  induction acts generalizing h c s with
  | nil => trivial
  | cons a r ih =>
    cases a with
    | bit w => exact ⟨(good_bit hi.good s w).1, ih (inv_bit hi w)⟩
    | start => exact ih (inv_start hi)
    | stop =>
      refine ⟨fun hb => good_drives hi.good ?_, ih (inv_stop hi)⟩
      have hb' : (!c.drv_reg) ≠ true := hb
      simpa using hb'

/-- The invariant survives any list of actions. -/
theorem inv_fin {h : Option (List Bool)} {c : Core} {s : Bool} (hi : Inv aw mem h c s)
    (acts : List Act) : ∃ h', Inv aw mem h' (fin aw mem (c, s) acts).1 (fin aw mem (c, s) acts).2 := by
  induction acts generalizing h c s with
  | nil => exact ⟨h, hi⟩
  | cons a r ih =>
    cases a with
    | bit w => exact ih (inv_bit hi w)
    | start => exact ih (inv_start hi)
    | stop => exact ih (inv_stop hi)

theorem outs_length (cs : Core × Bool) (n : Nat) (w : Bool) :
    (outs aw mem cs (List.replicate n (.bit w))).length = n := by
  induction n generalizing cs with
  | zero => rfl
  | succ n ih =>
    rw [List.replicate_succ]
    show (outs aw mem _ (List.replicate n (.bit w))).length + 1 = n + 1
    rw [ih]

/-- While a byte is read: the line is high at the latest after the byte. -/
theorem read_releases (k n : Nat) (hn : n + k = 8) (d : BitVec 8) (r : Bool) (o : Nat) (b v s : Bool) :
    true ∈ outs aw mem (mk mem n d r o b v .read, s) (List.replicate (k + 1) (.bit true)) := by
  induction k generalizing n d b v s with
  | zero =>
    have : n = 8 := by omega
    subst this
    have g1 : seen aw mem (mk mem 8 d r o b v .read) true = true := by
      unfold seen; rw [fall_read8]; simp [mk, zeroDrv]
    rw [List.replicate_succ, (play_one _ _ _ _).1, g1]
    exact List.mem_cons_self
  | succ k ih =>
    rw [List.replicate_succ, (play_one _ _ _ _).1,
      (read_bit (aw := aw) (mem := mem) (c := n) (d := d) (r := r) (o := o) (b := b) (v := v)
        (by omega) s).2]
    exact List.mem_cons_of_mem _ (ih (n + 1) (by omega) _ _ _ _)

theorem mem_outs_le {cs : Core × Bool} {m n : Nat} (h : m ≤ n)
    (hm : true ∈ outs aw mem cs (List.replicate m (.bit true))) :
    true ∈ outs aw mem cs (List.replicate n (.bit true)) := by
  rw [show n = m + (n - m) by omega, ← List.replicate_append_replicate, outs_append]
  exact List.mem_append_left _ hm

/-- Ten clock pulses with SDA released free the line. -/
theorem releases {h : Option (List Bool)} {c : Core} (hg : Good mem h c) (s : Bool) :
    true ∈ outs aw mem (c, s) (List.replicate 10 (.bit true)) := by
  obtain ⟨n, d, r, o, b, v, f, rfl, nd, hp⟩ := hg
  have one : seen aw mem (mk mem n d r o b v f) true = true →
      true ∈ outs aw mem (mk mem n d r o b v f, s) (List.replicate 10 (.bit true)) := by
    intro h1
    rw [List.replicate_succ, (play_one _ _ _ _).1, h1]
    exact List.mem_cons_self
  cases f with
  | waitStart =>
    have nd := nd (by simp)
    exact one (by unfold seen; rw [fall_waitStart]; simp [mk, zeroDrv, nd])
  | rcvAddress =>
    have nd := nd (by simp)
    have hf := fall_rcvAddress (aw := aw) (mem := mem) (d := d) (r := r) (o := o) (b := b) (v := v)
      (c := n) (by have := hp.1; omega) false
    exact one (by unfold seen; rw [hf]; simp [mk, zeroDrv, nd])
  | rcvOffset =>
    have nd := nd (by simp)
    have hf := fall_rcvOffset (aw := aw) (mem := mem) (d := d) (r := r) (o := o) (b := b) (v := v)
      (c := n) (by have := hp.1; omega) false
    exact one (by unfold seen; rw [hf]; simp [mk, zeroDrv, nd])
  | ackOffset2 =>
    obtain ⟨rfl, -⟩ := hp
    have nd := nd (by simp)
    exact one (by unfold seen; rw [fall_ackOffset2]; simp [mk, zeroDrv, nd])
  | ackOffset0 =>
    obtain ⟨rfl, -⟩ := hp
    have nd := nd (by simp)
    have k := ack_offset (aw := aw) (mem := mem) (d := d) (r := r) (o := o) (b := b) (v := v) s true
    have k2 := restart (aw := aw) (mem := mem) (d := d) (r := r) (o := o) (b := b) (v := v) nd false
    refine mem_outs_le (m := 1 + 1) (by omega) ?_
    rw [← List.replicate_append_replicate, outs_append]
    refine List.mem_append_right _ ?_
    rw [List.replicate_one, k.2, k2.1]
    exact List.mem_cons_self
  | read =>
    exact mem_outs_le (m := 8 - n + 1) (by omega)
      (read_releases (8 - n) n (by have := hp.1; omega) d r o b v s)
  | ackAddress2 =>
    obtain ⟨rfl, -⟩ := hp
    have nd := nd (by simp)
    cases r with
    | false =>
      exact one (by unfold seen; rw [fall_ackAddress2_write]; simp [mk, zeroDrv, nd])
    | true =>
      rw [List.replicate_succ, (play_settled _ s s _ _).1, fall_ackAddress2_read,
        ← List.replicate_succ]
      exact mem_outs_le (m := 8 + 1) (by omega)
        (read_releases 8 0 (by omega) _ _ _ _ _ _)
  | ackAddress0 =>
    obtain ⟨rfl, -⟩ := hp
    have nd := nd (by simp)
    have k := ack_address (aw := aw) (mem := mem) (d := d) (r := r) (o := o) (b := b) (v := v) s true
    rw [show 10 = 1 + 9 by omega, ← List.replicate_append_replicate, outs_append]
    refine List.mem_append_right _ ?_
    rw [List.replicate_one, k.2]
    rw [List.replicate_succ, (play_settled _ _ false _ _).1]
    cases r with
    | false =>
      rw [fall_ackAddress2_write, (play_one _ _ _ _).1]
      have hf := fall_rcvOffset (aw := aw) (mem := mem) (d := d) (r := false) (o := o) (b := b)
        (v := v) (c := 0) (by omega) false
      have : seen aw mem (mk mem 0 d false o b v .rcvOffset) true = true := by
        unfold seen; rw [hf]; simp [mk, zeroDrv, nd]
      rw [this]
      exact List.mem_cons_self
    | true =>
      rw [fall_ackAddress2_read, ← List.replicate_succ]
      exact read_releases 8 0 (by omega) _ _ _ _ _ _
  | ackAddress1 => exact hp.elim
  | ackOffset1 => exact hp.elim
  | ackRead => exact hp.elim

end Verif.Edid
