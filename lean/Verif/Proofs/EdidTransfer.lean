import Verif.Proofs.EdidBus

/-!
# EDID: transfers
-/

namespace Verif.Edid

open Verif.I2c

variable {aw : Nat} {mem : Nat → BitVec 8} {c : Nat} {d : BitVec 8} {r : Bool} {o : Nat}
  {b v : Bool}

theorem play_one (c : Core) (s w : Bool) (rest : List Act) :
    outs aw mem (c, s) (.bit w :: rest) =
      seen aw mem c w :: outs aw mem (evCore aw mem c s (.bit w), seen aw mem c w) rest ∧
    fin aw mem (c, s) (.bit w :: rest) =
      fin aw mem (evCore aw mem c s (.bit w), seen aw mem c w) rest := ⟨rfl, rfl⟩

theorem play_start (c : Core) (s : Bool) (rest : List Act) :
    outs aw mem (c, s) (.start :: rest) = outs aw mem (evCore aw mem c s .start, false) rest ∧
    fin aw mem (c, s) (.start :: rest) = fin aw mem (evCore aw mem c s .start, false) rest := ⟨rfl, rfl⟩

/-- What the falling edge will do may as well have been done. -/
theorem play_settled (c : Core) (s s' w : Bool) (rest : List Act) :
    outs aw mem (c, s) (.bit w :: rest) =
      outs aw mem (settle aw mem false c, s') (.bit w :: rest) ∧
    fin aw mem (c, s) (.bit w :: rest) =
      fin aw mem (settle aw mem false c, s') (.bit w :: rest) := by
  have h : settle aw mem false (settle aw mem false c) = settle aw mem false c :=
    settle_of_fixed (settle_fixed aw mem false c)
  have h1 : seen aw mem (settle aw mem false c) w = seen aw mem c w := by unfold seen; rw [h]
  have h2 : evCore aw mem (settle aw mem false c) s' (.bit w) = evCore aw mem c s (.bit w) := by
    unfold evCore; simp only [h, h1]
  rw [(play_one c s w rest).1, (play_one c s w rest).2, (play_one _ s' w rest).1,
    (play_one _ s' w rest).2, h1, h2]
  exact ⟨rfl, rfl⟩

theorem shl_zero (d : BitVec 8) (s : Bool) : (shl d s).getLsbD 0 = s := by
  simp only [shl, BitVec.getLsbD_setWidth, BitVec.getLsbD_append, BitVec.getLsbD_ofBool]
  simp

theorem shl_succ (d : BitVec 8) (s : Bool) (i : Nat) (hi : i < 7) :
    (shl d s).getLsbD (i + 1) = d.getLsbD i := by
  simp only [shl, BitVec.getLsbD_setWidth, BitVec.getLsbD_append]
  rw [decide_eq_true (by omega), if_neg (by omega)]
  simp

theorem shl_bits (d byte : BitVec 8) : (byteBits byte).foldl shl d = byte := by
  simp only [byteBits, List.range, List.range.loop, List.map_cons, List.map_nil, List.foldl_cons,
    List.foldl_nil]
  apply BitVec.eq_of_getLsbD_eq
  intro i hi
  have : i = 0 ∨ i = 1 ∨ i = 2 ∨ i = 3 ∨ i = 4 ∨ i = 5 ∨ i = 6 ∨ i = 7 := by omega
  rcases this with h | h | h | h | h | h | h | h <;> subst h <;>
    repeat first | rw [shl_zero] | rw [shl_succ _ _ _ (by omega)]

/-- The first seven bits of a byte for the address. -/
theorem recv_address (nd : (v && !b) = false) (s : Bool) (ws : List Bool) (hc : c + ws.length ≤ 7) :
    outs aw mem (mk mem c d r o b v .rcvAddress, s) (ws.map Act.bit) = ws ∧
    ∃ s', fin aw mem (mk mem c d r o b v .rcvAddress, s) (ws.map Act.bit) =
      (mk mem (c + ws.length) (ws.foldl shl d) r o b v .rcvAddress, s') := by
  induction ws generalizing c d s with
  | nil => exact ⟨rfl, s, rfl⟩
  | cons w ws ih =>
    have hlen : c + 1 + ws.length ≤ 7 := by simp at hc; omega
    have hf := fall_rcvAddress (aw := aw) (mem := mem) (d := d) (r := r) (o := o) (b := b) (v := v)
      (c := c) (by omega) false
    have h1 : seen aw mem (mk mem c d r o b v .rcvAddress) w = w := by
      unfold seen; rw [hf]; simp [mk, zeroDrv, nd]
    have h2 : evCore aw mem (mk mem c d r o b v .rcvAddress) s (.bit w) =
        mk mem (c + 1) (shl d w) r o b v .rcvAddress := by
      unfold evCore; simp only [hf, h1]; exact rise_rcvAddress (by omega)
    rw [List.map_cons, (play_one _ s w _).1, (play_one _ s w _).2, h1, h2]
    obtain ⟨i1, s', i2⟩ := ih (c := c + 1) (d := shl d w) w hlen
    refine ⟨by rw [i1], s', ?_⟩
    rw [i2, List.length_cons, List.foldl_cons, show c + 1 + ws.length = c + (ws.length + 1) by omega]

theorem recv_offset (nd : (v && !b) = false) (s : Bool) (ws : List Bool) (hc : c + ws.length ≤ 7) :
    outs aw mem (mk mem c d r o b v .rcvOffset, s) (ws.map Act.bit) = ws ∧
    ∃ s', fin aw mem (mk mem c d r o b v .rcvOffset, s) (ws.map Act.bit) =
      (mk mem (c + ws.length) (ws.foldl shl d) r o b v .rcvOffset, s') := by
  induction ws generalizing c d s with
  | nil => exact ⟨rfl, s, rfl⟩
  | cons w ws ih =>
    have hlen : c + 1 + ws.length ≤ 7 := by simp at hc; omega
    have hf := fall_rcvOffset (aw := aw) (mem := mem) (d := d) (r := r) (o := o) (b := b) (v := v)
      (c := c) (by omega) false
    have h1 : seen aw mem (mk mem c d r o b v .rcvOffset) w = w := by
      unfold seen; rw [hf]; simp [mk, zeroDrv, nd]
    have h2 : evCore aw mem (mk mem c d r o b v .rcvOffset) s (.bit w) =
        mk mem (c + 1) (shl d w) r o b v .rcvOffset := by
      unfold evCore; simp only [hf, h1]; exact rise_rcvOffset (by omega)
    rw [List.map_cons, (play_one _ s w _).1, (play_one _ s w _).2, h1, h2]
    obtain ⟨i1, s', i2⟩ := ih (c := c + 1) (d := shl d w) w hlen
    refine ⟨by rw [i1], s', ?_⟩
    rw [i2, List.length_cons, List.foldl_cons, show c + 1 + ws.length = c + (ws.length + 1) by omega]

/-- A byte is its first seven bits and its last. -/
theorem byteBits_split (byte : BitVec 8) :
    byteBits byte = ((List.range 7).map fun i => byte.getLsbD (7 - i)) ++ [byte.getLsbD 0] := rfl

theorem shl_split (d byte : BitVec 8) :
    shl (((List.range 7).map fun i => byte.getLsbD (7 - i)).foldl shl d) (byte.getLsbD 0) = byte := by
  have := shl_bits d byte
  rw [byteBits_split, List.foldl_append] at this
  exact this

/-- A received address byte. -/
theorem address_byte (nd : (v && !b) = false) (s : Bool) (byte : BitVec 8) :
    outs aw mem (mk mem 0 d r o b v .rcvAddress, s) ((byteBits byte).map Act.bit) = byteBits byte ∧
    ∃ s', fin aw mem (mk mem 0 d r o b v .rcvAddress, s) ((byteBits byte).map Act.bit) =
      ((if byte.toNat / 2 = 0x50 then mk mem 8 byte (byte.getLsbD 0) o b v .ackAddress0
        else mk mem 8 byte r o b v .waitStart), s') := by
  obtain ⟨h1, s', h2⟩ := recv_address (aw := aw) (mem := mem) (c := 0) (d := d) (r := r) (o := o) nd s
    ((List.range 7).map fun i => byte.getLsbD (7 - i)) (by simp)
  rw [byteBits_split, List.map_append, outs_append, fin_append, h1, h2]
  simp only [List.length_map, List.length_range, Nat.zero_add]
  have e := shl_split d byte
  generalize ((List.range 7).map fun i => byte.getLsbD (7 - i)).foldl shl d = d7 at e
  have hf := fall_rcvAddress (aw := aw) (mem := mem) (d := d7) (r := r) (o := o) (b := b) (v := v)
    (c := 7) (by omega) false
  have g1 : seen aw mem (mk mem 7 d7 r o b v .rcvAddress) (byte.getLsbD 0) = byte.getLsbD 0 := by
    unfold seen; rw [hf]; simp [mk, zeroDrv, nd]
  rw [List.map_cons, List.map_nil, (play_one _ s' _ _).1, (play_one _ s' _ _).2, g1]
  refine ⟨rfl, byte.getLsbD 0, ?_⟩
  show (evCore aw mem _ s' (.bit (byte.getLsbD 0)), _) = _
  unfold evCore
  simp only [hf, g1]
  by_cases hm : byte.toNat / 2 = 0x50
  · rw [rise_address_hit (by rw [e]; exact hm), e, if_pos hm]
  · rw [rise_address_miss (by rw [e]; exact hm), e, if_neg hm]

/-- A received offset byte. -/
theorem offset_byte (nd : (v && !b) = false) (s : Bool) (byte : BitVec 8) :
    outs aw mem (mk mem 0 d r o b v .rcvOffset, s) ((byteBits byte).map Act.bit) = byteBits byte ∧
    ∃ s', fin aw mem (mk mem 0 d r o b v .rcvOffset, s) ((byteBits byte).map Act.bit) =
      (mk mem 8 byte r (byte.toNat % 2 ^ aw) b v .ackOffset0, s') := by
  obtain ⟨h1, s', h2⟩ := recv_offset (aw := aw) (mem := mem) (c := 0) (d := d) (r := r) (o := o) nd s
    ((List.range 7).map fun i => byte.getLsbD (7 - i)) (by simp)
  rw [byteBits_split, List.map_append, outs_append, fin_append, h1, h2]
  simp only [List.length_map, List.length_range, Nat.zero_add]
  have e := shl_split d byte
  generalize ((List.range 7).map fun i => byte.getLsbD (7 - i)).foldl shl d = d7 at e
  have hf := fall_rcvOffset (aw := aw) (mem := mem) (d := d7) (r := r) (o := o) (b := b) (v := v)
    (c := 7) (by omega) false
  have g1 : seen aw mem (mk mem 7 d7 r o b v .rcvOffset) (byte.getLsbD 0) = byte.getLsbD 0 := by
    unfold seen; rw [hf]; simp [mk, zeroDrv, nd]
  rw [List.map_cons, List.map_nil, (play_one _ s' _ _).1, (play_one _ s' _ _).2, g1]
  refine ⟨rfl, byte.getLsbD 0, ?_⟩
  show (evCore aw mem _ s' (.bit (byte.getLsbD 0)), _) = _
  unfold evCore
  simp only [hf, g1]
  rw [rise_offset, e]

theorem ack_address (s w : Bool) :
    outs aw mem (mk mem 8 d r o b v .ackAddress0, s) [.bit w] = [false] ∧
    fin aw mem (mk mem 8 d r o b v .ackAddress0, s) [.bit w] =
      (mk mem 0 d r o b v .ackAddress2, false) := by
  have g1 : seen aw mem (mk mem 8 d r o b v .ackAddress0) w = false := by
    unfold seen; rw [fall_ackAddress0]; simp [mk, zeroDrv]
  rw [(play_one _ s _ _).1, (play_one _ s _ _).2, g1]
  refine ⟨rfl, ?_⟩
  show (evCore aw mem _ s (.bit w), _) = _
  unfold evCore
  simp only [fall_ackAddress0, g1, rise_ackAddress1]

theorem ack_offset (s w : Bool) :
    outs aw mem (mk mem 8 d r o b v .ackOffset0, s) [.bit w] = [false] ∧
    fin aw mem (mk mem 8 d r o b v .ackOffset0, s) [.bit w] =
      (mk mem 0 d r o b v .ackOffset2, false) := by
  have g1 : seen aw mem (mk mem 8 d r o b v .ackOffset0) w = false := by
    unfold seen; rw [fall_ackOffset0]; simp [mk, zeroDrv]
  rw [(play_one _ s _ _).1, (play_one _ s _ _).2, g1]
  refine ⟨rfl, ?_⟩
  show (evCore aw mem _ s (.bit w), _) = _
  unfold evCore
  simp only [fall_ackOffset0, g1, rise_ackOffset1]

/-- A START. -/
theorem start_mk (c : Core) (h : quiet aw mem true c = c) :
    evCore aw mem c true .start =
      mk mem 0 c.din c.is_read c.offset c.data_bit c.data_drv .rcvAddress := by
  have hd : c.dat_r = mem c.offset := (congrArg Core.dat_r h).symm
  have hf := congrArg Core.fsm h
  obtain ⟨counter, din, is_read, offset, dat_r, data_bit, data_drv, fsm, drv_reg⟩ := c
  simp only at hd
  subst hd
  have h1 : Core.updateIsRead ⟨counter, din, is_read, offset, mem offset, data_bit, data_drv, fsm, drv_reg⟩ = false := by
    cases fsm <;> simp [Core.updateIsRead]
    intro h8 hm
    simp [quiet, Core.step, Core.fsmOwn, Bus.start, h8, hm] at hf
  have h2 : Core.ocLoad ⟨counter, din, is_read, offset, mem offset, data_bit, data_drv, fsm, drv_reg⟩ = false := by
    cases fsm <;> simp [Core.ocLoad]
    intro h8
    simp [quiet, Core.step, Core.fsmOwn, Bus.start, h8] at hf
  have : Core.step aw mem ⟨counter, din, is_read, offset, mem offset, data_bit, data_drv, fsm, drv_reg⟩
      ⟨true, false, true, true⟩ true = ⟨0, din, is_read, offset, mem offset, data_bit, data_drv,
        .rcvAddress, Core.sdaDrv ⟨counter, din, is_read, offset, mem offset, data_bit, data_drv, fsm, drv_reg⟩⟩ := by
    simp [Core.step, Bus.rising, Bus.start, h1, h2, Core.ocInc, Core.dataDrvEn, Core.dataDrvStop]
  unfold evCore
  simp only [this]
  have : quiet aw mem true ⟨0, din, is_read, offset, mem offset, data_bit, data_drv,
      .rcvAddress, Core.sdaDrv ⟨counter, din, is_read, offset, mem offset, data_bit, data_drv, fsm, drv_reg⟩⟩ =
      mk mem 0 din is_read offset data_bit data_drv .rcvAddress := by
    simp [mk, quiet, Core.step, Bus.rising, Bus.start, Core.fsmOwn, Core.updateIsRead,
      Core.ocLoad, Core.ocInc, Core.dataDrvEn, Core.dataDrvStop, Core.sdaDrv, zeroDrv]
  rw [← settle_quiet, this, fall_rcvAddress (by omega)]

/-- One bit of a byte that is read. -/
theorem read_bit (hc : c < 8) (s : Bool) :
    seen aw mem (mk mem c d r o b v .read) true = (mem o).getLsbD (7 - c) ∧
    evCore aw mem (mk mem c d r o b v .read) s (.bit true) =
      mk mem (c + 1) (shl d ((mem o).getLsbD (7 - c))) r o ((mem o).getLsbD (7 - c)) true .read := by
  have hf := fall_read (aw := aw) (mem := mem) (c := c) (d := d) (r := r) (o := o) (b := b) (v := v)
    (by omega)
  have h1 : seen aw mem (mk mem c d r o b v .read) true = (mem o).getLsbD (7 - c) := by
    unfold seen; rw [hf]; simp [mk, zeroDrv]
  refine ⟨h1, ?_⟩
  unfold evCore
  simp only [hf, h1]
  exact rise_read (by omega)

/-- The bits of a byte that is read. -/
theorem read_bits (s : Bool) (n : Nat) (hc : c + n ≤ 8) :
    outs aw mem (mk mem c d r o b v .read, s) (List.replicate n (.bit true)) =
      (List.range n).map (fun i => (mem o).getLsbD (7 - (c + i))) ∧
    ∃ d' b' v' s', fin aw mem (mk mem c d r o b v .read, s) (List.replicate n (.bit true)) =
      (mk mem (c + n) d' r o b' v' .read, s') := by
  induction n generalizing c d b v s with
  | zero => exact ⟨rfl, d, b, v, s, rfl⟩
  | succ n ih =>
    obtain ⟨h1, h2⟩ := read_bit (aw := aw) (mem := mem) (c := c) (d := d) (r := r) (o := o) (b := b)
      (v := v) (by omega) s
    rw [List.replicate_succ, (play_one _ s _ _).1, (play_one _ s _ _).2, h1, h2]
    obtain ⟨i1, d', b', v', s', i2⟩ := ih (c := c + 1) (d := shl d ((mem o).getLsbD (7 - c)))
      (b := (mem o).getLsbD (7 - c)) (v := true) ((mem o).getLsbD (7 - c)) (by omega)
    refine ⟨?_, d', b', v', s', by rw [i2, show c + 1 + n = c + (n + 1) by omega]⟩
    rw [i1, List.range_succ_eq_map, List.map_cons, List.map_map]
    congr 1
    apply List.map_congr_left
    intro i _
    show (mem o).getLsbD (7 - (c + 1 + i)) = (mem o).getLsbD (7 - (c + (i + 1)))
    rw [show c + 1 + i = c + (i + 1) by omega]

/-- A byte that is read and the answer to it. -/
theorem read_byte (s a : Bool) :
    outs aw mem (mk mem 0 d r o b v .read, s) ((List.replicate 8 true ++ [a]).map Act.bit) =
      byteBits (mem o) ++ [a] ∧
    ∃ d' b' v', fin aw mem (mk mem 0 d r o b v .read, s) ((List.replicate 8 true ++ [a]).map Act.bit) =
      (mk mem 0 d' r ((o + 1) % 2 ^ aw) b' false (if a then .waitStart else .read), v') := by
  obtain ⟨h1, d', b', v', s', h2⟩ := read_bits (aw := aw) (mem := mem) (c := 0) (d := d) (r := r)
    (o := o) (b := b) (v := v) s 8 (by omega)
  rw [Nat.zero_add] at h2
  rw [List.map_append, List.map_replicate, outs_append, fin_append, h1, h2]
  have g1 : seen aw mem (mk mem 8 d' r o b' v' .read) a = a := by
    unfold seen; rw [fall_read8]; simp [mk, zeroDrv]
  have g2 : evCore aw mem (mk mem 8 d' r o b' v' .read) s' (.bit a) =
      mk mem 0 d' r ((o + 1) % 2 ^ aw) b' false (if a then .waitStart else .read) := by
    unfold evCore
    simp only [fall_read8, g1, rise_ackRead]
  rw [List.map_cons, List.map_nil, (play_one _ s' _ _).1, (play_one _ s' _ _).2, g1, g2]
  refine ⟨?_, d', b', a, rfl⟩
  simp only [Nat.zero_add]
  rfl

/-- Several bytes. -/
theorem read_bytes (s last : Bool) (n k off : Nat) (h : o = (off + k) % 2 ^ aw) :
    outs aw mem (mk mem 0 d r o b v .read, s)
      (((List.replicate n false ++ [last]).flatMap fun a => List.replicate 8 true ++ [a]).map Act.bit) =
    dataSeen (fun k => mem ((off + k) % 2 ^ aw)) k (List.replicate n false ++ [last]) := by
  induction n generalizing k o d b v s with
  | zero =>
    have := (read_byte (aw := aw) (mem := mem) (d := d) (r := r) (o := o) (b := b) (v := v) s last).1
    simp only [List.replicate_zero, List.nil_append, List.flatMap_cons, List.flatMap_nil,
      List.append_nil, dataSeen]
    rw [this, h]
  | succ n ih =>
    rw [List.replicate_succ (n := n), List.cons_append, List.flatMap_cons, List.map_append, outs_append]
    obtain ⟨h1, d', b', s', h2⟩ := read_byte (aw := aw) (mem := mem) (d := d) (r := r) (o := o)
      (b := b) (v := v) s false
    rw [h1, h2]
    have := ih (o := (o + 1) % 2 ^ aw) (d := d') (b := b') (v := false) s' (k + 1)
      (by rw [h, Nat.mod_add_mod]; congr 1)
    simp only [Bool.false_eq_true, if_false]
    rw [this]
    show _ = byteBits _ ++ [false] ++ dataSeen _ (k + 1) _
    rw [h]

theorem some_cons (l : List Bool) (h : l ≠ []) : ∃ w rest, l.map Act.bit = .bit w :: rest := by
  cases l with
  | nil => exact absurd rfl h
  | cons w r => exact ⟨w, r.map Act.bit, rfl⟩

/-- Setting the offset. -/
theorem set_offset (c : Core) (hq : quiet aw mem true c = c) (hd : c.drv_reg = false)
    (offset : BitVec 8) :
    outs aw mem (c, true) (sendOffset offset) = offsetSeen offset ∧
    ∃ d r b v, (v && !b) = false ∧ fin aw mem (c, true) (sendOffset offset) =
      (mk mem 0 d r (offset.toNat % 2 ^ aw) b v .ackOffset2, false) := by
  have nd : (c.data_drv && !c.data_bit) = false := by
    rw [drv_reg_of_fixed hq] at hd
    unfold Core.sdaDrv at hd
    cases h : zeroDrv c.fsm with
    | true => rw [h] at hd; simp at hd
    | false => rw [h] at hd; exact hd
  have hs := start_mk c hq
  rw [sendOffset, (play_start _ _ _).1, (play_start _ _ _).2, hs]
  obtain ⟨a1, s1, a2⟩ := address_byte (aw := aw) (mem := mem) (d := c.din) (r := c.is_read)
    (o := c.offset) nd false writeAddress
  rw [if_pos (by decide)] at a2
  simp only [List.map_append, outs_append, fin_append, a1, a2]
  have k := ack_address (aw := aw) (mem := mem) (d := writeAddress) (r := writeAddress.getLsbD 0)
    (o := c.offset) (b := c.data_bit) (v := c.data_drv) s1 true
  rw [List.map_cons, List.map_nil, k.1, k.2]
  obtain ⟨w, rest, hw⟩ := some_cons (byteBits offset) (by simp [byteBits])
  have hse := play_settled (aw := aw) (mem := mem) (mk mem 0 writeAddress (writeAddress.getLsbD 0)
    c.offset c.data_bit c.data_drv .ackAddress2) false false w rest
  rw [show writeAddress.getLsbD 0 = false from rfl, fall_ackAddress2_write, ← hw] at hse
  rw [show writeAddress.getLsbD 0 = false from rfl, hse.1, hse.2]
  obtain ⟨b1, s2, b2⟩ := offset_byte (aw := aw) (mem := mem) (d := writeAddress) (r := false)
    (o := c.offset) nd false offset
  rw [b1, b2]
  have k := ack_offset (aw := aw) (mem := mem) (d := offset) (r := false)
    (o := offset.toNat % 2 ^ aw) (b := c.data_bit) (v := c.data_drv) s2 true
  rw [k.1, k.2]
  exact ⟨by simp [offsetSeen], _, _, _, _, nd, rfl⟩

/-- Between the two parts: SCL is pulsed once with SDA released. -/
theorem restart (nd : (v && !b) = false) (s : Bool) :
    outs aw mem (mk mem 0 d r o b v .ackOffset2, s) [.bit true] = [true] ∧
    ∃ d', fin aw mem (mk mem 0 d r o b v .ackOffset2, s) [.bit true] =
      (mk mem 1 d' r o b v .rcvAddress, true) := by
  have hse := play_settled (aw := aw) (mem := mem) (mk mem 0 d r o b v .ackOffset2) s s true []
  rw [fall_ackOffset2] at hse
  obtain ⟨h1, s', h2⟩ := recv_address (aw := aw) (mem := mem) (c := 0) (d := d) (r := r) (o := o) nd
    s [true] (by simp)
  rw [hse.1, hse.2]
  have hf := fall_rcvAddress (aw := aw) (mem := mem) (d := d) (r := r) (o := o) (b := b) (v := v)
    (c := 0) (by omega) false
  have g1 : seen aw mem (mk mem 0 d r o b v .rcvAddress) true = true := by
    unfold seen; rw [hf]; simp [mk, zeroDrv, nd]
  refine ⟨h1, shl d true, ?_⟩
  rw [(play_one _ s _ _).2, g1]
  show (evCore aw mem _ s (.bit true), true) = _
  unfold evCore
  simp only [hf, g1]
  rw [rise_rcvAddress (by omega)]

/-- Reading from a state without drive, the offset being `o`. -/
theorem read_all (c : Core) (hq : quiet aw mem true c = c) (hd : c.drv_reg = false)
    (off n : Nat) (ho : c.offset = off % 2 ^ aw) (last : Bool) :
    outs aw mem (c, true) (readBytes (List.replicate n false ++ [last])) =
      readSeen (fun k => mem ((off + k) % 2 ^ aw)) (List.replicate n false ++ [last]) := by
  have nd : (c.data_drv && !c.data_bit) = false := by
    rw [drv_reg_of_fixed hq] at hd
    unfold Core.sdaDrv at hd
    cases h : zeroDrv c.fsm with
    | true => rw [h] at hd; simp at hd
    | false => rw [h] at hd; exact hd
  have hs := start_mk c hq
  rw [readBytes, (play_start _ _ _).1, hs]
  obtain ⟨a1, s1, a2⟩ := address_byte (aw := aw) (mem := mem) (d := c.din) (r := c.is_read)
    (o := c.offset) nd false readAddress
  rw [if_pos (by decide)] at a2
  rw [List.map_append, List.map_append, outs_append, outs_append, fin_append, a1, a2]
  have k := ack_address (aw := aw) (mem := mem) (d := readAddress) (r := readAddress.getLsbD 0)
    (o := c.offset) (b := c.data_bit) (v := c.data_drv) s1 true
  rw [List.map_cons, List.map_nil, k.1, k.2]
  obtain ⟨w, rest, hw⟩ := some_cons ((List.replicate n false ++ [last]).flatMap
    fun a => List.replicate 8 true ++ [a]) (by
      cases n <;> simp [List.replicate_succ])
  have hse := play_settled (aw := aw) (mem := mem) (mk mem 0 readAddress (readAddress.getLsbD 0)
    c.offset c.data_bit c.data_drv .ackAddress2) false false w rest
  rw [show readAddress.getLsbD 0 = true from rfl, fall_ackAddress2_read, ← hw] at hse
  rw [show readAddress.getLsbD 0 = true from rfl, hse.1,
    read_bytes (aw := aw) (mem := mem) false last n 0 off (by rw [ho, Nat.add_zero])]
  rfl

/-- The whole transfer. -/
theorem transfer (c : Core) (hq : quiet aw mem true c = c) (hd : c.drv_reg = false)
    (offset : BitVec 8) (n : Nat) (last : Bool) :
    outs aw mem (c, true)
      (sendOffset offset ++ [.bit true] ++ readBytes (List.replicate n false ++ [last])) =
    offsetSeen offset ++ [true] ++ readSeen (fun k => mem ((offset.toNat + k) % 2 ^ aw))
      (List.replicate n false ++ [last]) := by
  obtain ⟨h1, d, r, b, v, nd, h2⟩ := set_offset c hq hd offset
  obtain ⟨g1, d', g2⟩ := restart (aw := aw) (mem := mem) (d := d) (r := r)
    (o := offset.toNat % 2 ^ aw) nd false
  have hf : quiet aw mem true (mk mem 1 d' r (offset.toNat % 2 ^ aw) b v .rcvAddress) =
      mk mem 1 d' r (offset.toNat % 2 ^ aw) b v .rcvAddress := by
    have := fall_rcvAddress (aw := aw) (mem := mem) (c := 1) (d := d') (r := r)
      (o := offset.toNat % 2 ^ aw) (b := b) (v := v) (by omega) true
    rw [← this]
    exact settle_fixed aw mem true _
  have hdr : (mk mem 1 d' r (offset.toNat % 2 ^ aw) b v .rcvAddress).drv_reg = false := by
    show (zeroDrv .rcvAddress || (v && !b)) = false
    rw [nd]; rfl
  have := read_all _ hf hdr offset.toNat n rfl last
  rw [outs_append, outs_append, fin_append, h1, h2, g1, g2, this]

end Verif.Edid
