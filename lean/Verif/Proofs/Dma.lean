import Verif.Spec.Dma
import Verif.Proofs.Frame
import Mathlib.Tactic.Set

/-!
# Capture DMA: lemmas
-/

namespace Verif.Dma

open Verif.Spec.Dma Verif.Spec.Frame Verif.Spec.Stream Verif.Frame

variable {α : Type} {nslots aw al : Nat} {x : Nat → In α}

theorem wordsOf_lt (aw al v : Nat) : wordsOf aw al v < 2 ^ aw := Nat.mod_lt _ (Nat.two_pow_pos _)

theorem block_snoc (a : Nat) (ws : List α) (w : α) :
    block aw a (ws ++ [w]) = block aw a ws ++ [((a + ws.length) % 2 ^ aw, w)] := by
  simp [block, List.mapIdx_append]

theorem pickIn_length {α : Type} (p : Nat → Bool) (y : Nat → α) (t n : Nat) :
    (pickIn p y t n).length = countIn p t n := by
  induction n with
  | zero => rfl
  | succ n ih =>
    rw [pickIn, countIn, List.length_append, ih]
    cases p (t + n) <;> rfl

/-- A memory handshake at clock `u`, in the transfer state. -/
def fire (x : Nat → In α) (u : Nat) : Bool := (x u).valid && (x u).busReady

theorem owned_from (own : Owned nslots aw al x) (t0 : Nat) : OwnedFrom nslots aw al x t0 :=
  fun t n _ => own t n

theorem owned_mono {t0 t1 : Nat} (own : OwnedFrom nslots aw al x t0) (h : t0 ≤ t1) :
    OwnedFrom nslots aw al x t1 := fun t n ht => own t n (Nat.le_trans h ht)

theorem slot_kept {t0 : Nat} (own : OwnedFrom nslots aw al x t0) (t k : Nat) (ht : t0 ≤ t)
    (hv : ((dma nslots aw al x t).slots k).valid = true)
    (hd : (addressDone (dma nslots aw al x t) (x t) &&
      decide ((dma nslots aw al x t).current_slot = k)) = false) :
    (dma nslots aw al x (t + 1)).slots k = (dma nslots aw al x t).slots k := by
  show ((dma nslots aw al x t).slots k).step al ((x t).sw k) _ _ = _
  rw [own t k ht hv, hd]
  rfl

/-- What the state is `n` clocks after a transfer began, if fewer than `N` words were written. -/
theorem transfer_inv {t : Nat} (own : OwnedFrom nslots aw al x t) (hb : Begins nslots aw al x t) (n : Nat)
    (hc : countIn (fire x) (t + 1) n < wordsOf aw al (x t).frame_size) :
    let s := dma nslots aw al x t
    let s' := dma nslots aw al x (t + 1 + n)
    let a := (s.slots s.current_slot).word aw al
    let ws := pickIn (fire x) (fun u => (x u).pixels) (t + 1) n
    s'.fsm = .transferPixels ∧ s'.current_slot = s.current_slot ∧
    s'.slots s.current_slot = s.slots s.current_slot ∧
    s'.current_address = (a + ws.length) % 2 ^ aw ∧
    s'.mwords_remaining = wordsOf aw al (x t).frame_size - ws.length ∧
    writesIn nslots aw al x (t + 1) n = block aw a ws ∧
    takenIn nslots aw al x (t + 1) n = ws := by
  intro s s' a ws
  obtain ⟨h1, h2, h3, h4⟩ := hb
  have hlt := wordsOf_lt aw al (x t).frame_size
  induction n with
  | zero =>
    have hdone : addressDone s (x t) = false := by simp [addressDone, s, h1]
    refine ⟨?_, ?_, ?_, ?_, ?_, rfl, rfl⟩
    · show (match s.fsm with
        | .waitSof => if addressValid s && (x t).sof && (x t).valid then Fsm.transferPixels
          else .waitSof
        | .transferPixels => _
        | .eof => _) = _
      rw [h1, h2, h3, h4]; rfl
    · show (if !addressValid s || addressDone s (x t) then _ else s.current_slot) = _
      rw [h2, hdone]; rfl
    · exact slot_kept own t _ (Nat.le_refl _) h2 (by
        show (addressDone s (x t) && _) = false
        rw [hdone]; rfl)
    · show (if s.fsm = .waitSof then (s.slots s.current_slot).word aw al else _) = _
      rw [if_pos h1]
      show _ = (a + 0) % 2 ^ aw
      rw [Nat.add_zero]
      exact (Nat.mod_eq_of_lt (wordsOf_lt aw al _)).symm
    · show (if s.fsm = .waitSof then wordsOf aw al (x t).frame_size else _) = _
      rw [if_pos h1]; rfl
  | succ n ih =>
    have hc' : countIn (fire x) (t + 1) n < wordsOf aw al (x t).frame_size := by
      rw [countIn] at hc; omega
    obtain ⟨i1, i2, i3, i4, i5, i6, i7⟩ := ih hc'
    set r := dma nslots aw al x (t + 1 + n) with hr
    have hlen := pickIn_length (fire x) (fun u => (x u).pixels) (t + 1) n
    have hrs : s' = step nslots aw al r (x (t + 1 + n)) := rfl
    have hdone : addressDone r (x (t + 1 + n)) = false := by simp [addressDone, i1]
    have hval : addressValid r = true := by
      unfold addressValid
      rw [i2, i3]; exact h2
    have hw : writes r (x (t + 1 + n)) = fire x (t + 1 + n) := by
      simp [writes, busValid, fire, i1]
    have hfr : ((x (t + 1 + n)).valid && frameReady r (x (t + 1 + n))) = fire x (t + 1 + n) := by
      simp [frameReady, fire, i1]
    have hcs : countIn (fire x) (t + 1) (n + 1) = countIn (fire x) (t + 1) n +
      (if fire x (t + 1 + n) then 1 else 0) := rfl
    have hws : ws = pickIn (fire x) (fun u => (x u).pixels) (t + 1) n ++
      (if fire x (t + 1 + n) then [(x (t + 1 + n)).pixels] else []) := rfl
    have hwr : writesIn nslots aw al x (t + 1) (n + 1) = writesIn nslots aw al x (t + 1) n ++
      (if writes r (x (t + 1 + n)) then [busWord r (x (t + 1 + n))] else []) := rfl
    have htk : takenIn nslots aw al x (t + 1) (n + 1) = takenIn nslots aw al x (t + 1) n ++
      (if (x (t + 1 + n)).valid && frameReady r (x (t + 1 + n)) then [(x (t + 1 + n)).pixels]
        else []) := rfl
    refine ⟨?_, ?_, ?_, ?_, ?_, ?_, ?_⟩
    · show (match r.fsm with
        | .waitSof => _
        | .transferPixels => if (x (t + 1 + n)).valid && (x (t + 1 + n)).busReady &&
            decide (r.mwords_remaining = 1) then Fsm.eof else .transferPixels
        | .eof => _) = _
      rw [i1]
      show (if fire x (t + 1 + n) && decide (r.mwords_remaining = 1) then Fsm.eof
        else .transferPixels) = _
      rw [if_neg]
      intro h
      simp only [Bool.and_eq_true, decide_eq_true_eq] at h
      rw [hcs, if_pos h.1] at hc
      rw [i5, hlen] at h
      omega
    · show (if !addressValid r || addressDone r (x (t + 1 + n)) then _ else r.current_slot) = _
      rw [hval, hdone]; exact i2
    · rw [← i3]
      refine slot_kept own (t + 1 + n) _ (by omega) ?_ ?_
      · show (r.slots s.current_slot).valid = true
        rw [i3]; exact h2
      · show (addressDone r _ && _) = false
        rw [hdone]; rfl
    · show (if r.fsm = .waitSof then _ else if writes r (x (t + 1 + n)) then
        (r.current_address + 1) % 2 ^ aw else r.current_address) = _
      rw [if_neg (by rw [i1]; decide), hw, hws]
      by_cases hf : fire x (t + 1 + n) = true
      · rw [if_pos hf, if_pos hf, i4, List.length_append]
        simp [Nat.add_assoc]
      · rw [if_neg hf, if_neg hf, i4, List.append_nil]
    · show (if r.fsm = .waitSof then _ else if writes r (x (t + 1 + n)) then
        (r.mwords_remaining + 2 ^ aw - 1) % 2 ^ aw else r.mwords_remaining) = _
      rw [if_neg (by rw [i1]; decide), hw, hws]
      by_cases hf : fire x (t + 1 + n) = true
      · rw [if_pos hf, if_pos hf, i5, List.length_append, hlen]
        rw [show wordsOf aw al (x t).frame_size - countIn (fire x) (t + 1) n + 2 ^ aw - 1 =
          (wordsOf aw al (x t).frame_size - countIn (fire x) (t + 1) n - 1) + 2 ^ aw by omega,
          Nat.add_mod_right, Nat.mod_eq_of_lt (by omega)]
        simp; omega
      · rw [if_neg hf, if_neg hf, i5, List.append_nil]
    · rw [hwr, hw, i6, hws]
      by_cases hf : fire x (t + 1 + n) = true
      · rw [if_pos hf, if_pos hf, block_snoc]
        show _ ++ [(r.current_address, _)] = _
        rw [i4]
      · rw [if_neg hf, if_neg hf, List.append_nil, List.append_nil]
    · rw [htk, hfr, i7, hws]

/-- The last word of a transfer. -/
theorem transfer_end {t : Nat} (own : OwnedFrom nslots aw al x t) (hb : Begins nslots aw al x t) (n : Nat)
    (hc : countIn (fire x) (t + 1) n + 1 = wordsOf aw al (x t).frame_size)
    (hf : fire x (t + 1 + n) = true) :
    let s := dma nslots aw al x t
    let s' := dma nslots aw al x (t + 1 + n + 1)
    let a := (s.slots s.current_slot).word aw al
    let ws := pickIn (fire x) (fun u => (x u).pixels) (t + 1) (n + 1)
    s'.fsm = .eof ∧ s'.current_slot = s.current_slot ∧
    s'.slots s.current_slot = s.slots s.current_slot ∧
    s'.current_address = (a + ws.length) % 2 ^ aw ∧
    ws.length = wordsOf aw al (x t).frame_size ∧
    writesIn nslots aw al x (t + 1) (n + 1) = block aw a ws ∧
    takenIn nslots aw al x (t + 1) (n + 1) = ws := by
  intro s s' a ws
  obtain ⟨i1, i2, i3, i4, i5, i6, i7⟩ := transfer_inv own hb n (by omega)
  set r := dma nslots aw al x (t + 1 + n) with hr
  have hlen := pickIn_length (fire x) (fun u => (x u).pixels) (t + 1) n
  have hdone : addressDone r (x (t + 1 + n)) = false := by simp [addressDone, i1]
  have hval : addressValid r = true := by
    unfold addressValid
    rw [i2, i3]; exact hb.2.1
  have hw : writes r (x (t + 1 + n)) = true := by
    rw [← hf]; simp [writes, busValid, fire, i1]
  have hfr : ((x (t + 1 + n)).valid && frameReady r (x (t + 1 + n))) = true := by
    rw [← hf]; simp [frameReady, fire, i1]
  have hws : ws = pickIn (fire x) (fun u => (x u).pixels) (t + 1) n ++
      (if fire x (t + 1 + n) then [(x (t + 1 + n)).pixels] else []) := rfl
  rw [if_pos hf] at hws
  have hwr : writesIn nslots aw al x (t + 1) (n + 1) = writesIn nslots aw al x (t + 1) n ++
      (if writes r (x (t + 1 + n)) then [busWord r (x (t + 1 + n))] else []) := rfl
  have htk : takenIn nslots aw al x (t + 1) (n + 1) = takenIn nslots aw al x (t + 1) n ++
      (if (x (t + 1 + n)).valid && frameReady r (x (t + 1 + n)) then [(x (t + 1 + n)).pixels]
        else []) := rfl
  refine ⟨?_, ?_, ?_, ?_, ?_, ?_, ?_⟩
  · show (match r.fsm with
      | .waitSof => _
      | .transferPixels => if (x (t + 1 + n)).valid && (x (t + 1 + n)).busReady &&
          decide (r.mwords_remaining = 1) then Fsm.eof else .transferPixels
      | .eof => _) = _
    rw [i1]
    show (if fire x (t + 1 + n) && decide (r.mwords_remaining = 1) then Fsm.eof
      else .transferPixels) = _
    rw [if_pos]
    rw [hf, i5, hlen]
    simp only [Bool.true_and, decide_eq_true_eq]
    omega
  · show (if !addressValid r || addressDone r (x (t + 1 + n)) then _ else r.current_slot) = _
    rw [hval, hdone]; exact i2
  · rw [← i3]
    refine slot_kept own (t + 1 + n) _ (by omega) ?_ ?_
    · show (r.slots s.current_slot).valid = true
      rw [i3]; exact hb.2.1
    · show (addressDone r _ && _) = false
      rw [hdone]; rfl
  · show (if r.fsm = .waitSof then _ else if writes r (x (t + 1 + n)) then
      (r.current_address + 1) % 2 ^ aw else r.current_address) = _
    rw [if_neg (by rw [i1]; decide), if_pos hw, hws, i4, List.length_append]
    simp [Nat.add_assoc, a, s]
  · rw [hws, List.length_append, hlen]; exact hc
  · rw [hwr, if_pos hw, i6, hws, block_snoc]
    show _ ++ [(r.current_address, _)] = _
    rw [i4]
  · rw [htk, if_pos hfr, i7, hws]

/-- While the memory port drains nothing changes. -/
theorem eof_inv {t k : Nat} (own : OwnedFrom nslots aw al x t)
    (hfsm : (dma nslots aw al x t).fsm = .eof) (hk : (dma nslots aw al x t).current_slot = k)
    (hv : ((dma nslots aw al x t).slots k).valid = true) (m : Nat)
    (hd : ∀ u, u < m → (x (t + u)).wdataValid = true) :
    let s := dma nslots aw al x t
    let s' := dma nslots aw al x (t + m)
    s'.fsm = .eof ∧ s'.current_slot = k ∧ s'.slots k = s.slots k ∧
    s'.current_address = s.current_address ∧ writesIn nslots aw al x t m = [] ∧
    takenIn nslots aw al x t m = [] := by
  intro s s'
  induction m with
  | zero => exact ⟨hfsm, hk, rfl, rfl, rfl, rfl⟩
  | succ m ih =>
    obtain ⟨i1, i2, i3, i4, i5, i6⟩ := ih fun u hu => hd u (by omega)
    set r := dma nslots aw al x (t + m) with hr
    have hdm := hd m (by omega)
    have hdone : addressDone r (x (t + m)) = false := by simp [addressDone, hdm]
    have hval : addressValid r = true := by
      unfold addressValid
      rw [i2, i3]; exact hv
    have hw : writes r (x (t + m)) = false := by simp [writes, busValid, i1]
    have hfr : ((x (t + m)).valid && frameReady r (x (t + m))) = false := by simp [frameReady, i1]
    refine ⟨?_, ?_, ?_, ?_, ?_, ?_⟩
    · show (match r.fsm with
        | .waitSof => _
        | .transferPixels => _
        | .eof => if (x (t + m)).wdataValid then Fsm.eof else .waitSof) = _
      rw [i1]
      show (if (x (t + m)).wdataValid then Fsm.eof else .waitSof) = _
      rw [hdm]; rfl
    · show (if !addressValid r || addressDone r (x (t + m)) then _ else r.current_slot) = _
      rw [hval, hdone]; exact i2
    · rw [← i3]
      refine slot_kept own (t + m) _ (by omega) ?_ ?_
      · show (r.slots k).valid = true
        rw [i3]; exact hv
      · show (addressDone r _ && _) = false
        rw [hdone]; rfl
    · show (if r.fsm = .waitSof then _ else if writes r (x (t + m)) then _
        else r.current_address) = _
      rw [if_neg (by rw [i1]; decide), hw]; exact i4
    · show writesIn nslots aw al x t m ++ (if writes r (x (t + m)) then _ else []) = _
      rw [i5, hw]; rfl
    · show takenIn nslots aw al x t m ++
        (if (x (t + m)).valid && frameReady r (x (t + m)) then _ else []) = _
      rw [i6, hfr]; rfl

/-- Where the FSM states come from. -/
theorem origin_from {t0 : Nat} (own : OwnedFrom nslots aw al x t0)
    (idle : (dma nslots aw al x t0).fsm = .waitSof)
    (hN : ∀ t, t0 ≤ t → Begins nslots aw al x t → 1 ≤ wordsOf aw al (x t).frame_size) (u : Nat)
    (hu : t0 ≤ u) :
    ((dma nslots aw al x u).fsm = .transferPixels →
      ∃ t n, t0 ≤ t ∧ u = t + 1 + n ∧ Begins nslots aw al x t ∧
        countIn (fire x) (t + 1) n < wordsOf aw al (x t).frame_size) ∧
    ((dma nslots aw al x u).fsm = .eof →
      ∃ t n m, t0 ≤ t ∧ u = t + 1 + n + 1 + m ∧ Begins nslots aw al x t ∧
        countIn (fire x) (t + 1) n + 1 = wordsOf aw al (x t).frame_size ∧
        fire x (t + 1 + n) = true ∧
        ∀ v, v < m → (x (t + 1 + n + 1 + v)).wdataValid = true) := by
  obtain ⟨d, rfl⟩ : ∃ d, u = t0 + d := ⟨u - t0, by omega⟩
  clear hu
  induction d with
  | zero =>
    rw [Nat.add_zero, idle]
    exact ⟨fun h => absurd h (by decide), fun h => absurd h (by decide)⟩
  | succ d ih =>
    have hu0 : t0 ≤ t0 + d := Nat.le_add_right _ _
    rw [← Nat.add_assoc]
    generalize t0 + d = u at ih hu0
    set s := dma nslots aw al x u with hs
    have hstep : (dma nslots aw al x (u + 1)).fsm = (match s.fsm with
      | .waitSof => if addressValid s && (x u).sof && (x u).valid then Fsm.transferPixels
          else .waitSof
      | .transferPixels => if (x u).valid && (x u).busReady &&
            decide (s.mwords_remaining = 1) then .eof else .transferPixels
      | .eof => if (x u).wdataValid then Fsm.eof else .waitSof) := rfl
    rw [hstep]
    cases hf : s.fsm with
    | waitSof =>
      simp only
      by_cases hb : (addressValid s && (x u).sof && (x u).valid) = true
      · rw [if_pos hb]
        simp only [Bool.and_eq_true] at hb
        have hbeg : Begins nslots aw al x u := ⟨hf, hb.1.1, hb.1.2, hb.2⟩
        refine ⟨fun _ => ⟨u, 0, hu0, rfl, hbeg, ?_⟩, fun h => absurd h (by decide)⟩
        have := hN u hu0 hbeg
        show 0 < _
        omega
      · rw [if_neg hb]
        exact ⟨fun h => absurd h (by decide), fun h => absurd h (by decide)⟩
    | transferPixels =>
      simp only
      obtain ⟨t, n, ht0, hu, hbeg, hc⟩ := ih.1 hf
      obtain ⟨-, -, -, -, i5, -, -⟩ := transfer_inv (owned_mono own ht0) hbeg n hc
      have hlen := pickIn_length (fire x) (fun u => (x u).pixels) (t + 1) n
      rw [hlen, ← hu] at i5
      change s.mwords_remaining = _ at i5
      by_cases hl : (fire x u && decide (s.mwords_remaining = 1)) = true
      · have e : (if ((x u).valid && (x u).busReady && decide (s.mwords_remaining = 1)) = true
          then Fsm.eof else Fsm.transferPixels) = .eof := if_pos hl
        rw [e]
        simp only [Bool.and_eq_true, decide_eq_true_eq] at hl
        refine ⟨fun h => absurd h (by decide), fun _ => ⟨t, n, 0, ht0, by omega, hbeg, by omega, ?_,
          fun v hv => absurd hv (Nat.not_lt_zero v)⟩⟩
        rw [← hu]; exact hl.1
      · have e : (if ((x u).valid && (x u).busReady && decide (s.mwords_remaining = 1)) = true
          then Fsm.eof else Fsm.transferPixels) = .transferPixels := if_neg hl
        rw [e]
        refine ⟨fun _ => ⟨t, n + 1, ht0, by omega, hbeg, ?_⟩, fun h => absurd h (by decide)⟩
        rw [countIn, ← hu]
        by_cases hfu : fire x u = true
        · rw [hfu] at hl
          simp only [Bool.true_and, decide_eq_true_eq] at hl
          rw [if_pos hfu]; omega
        · rw [if_neg hfu]; omega
    | eof =>
      simp only
      by_cases hw : (x u).wdataValid = true
      · rw [if_pos hw]
        obtain ⟨t, n, m, ht0, hu, hbeg, hc, hfi, hd⟩ := ih.2 hf
        refine ⟨fun h => absurd h (by decide), fun _ => ⟨t, n, m + 1, ht0, by omega, hbeg, hc, hfi, ?_⟩⟩
        intro v hv
        rcases Nat.lt_or_eq_of_le (Nat.le_of_lt_succ hv) with h | rfl
        · exact hd v h
        · rw [← hu]; exact hw
      · rw [if_neg hw]
        exact ⟨fun h => absurd h (by decide), fun h => absurd h (by decide)⟩

theorem origin (own : Owned nslots aw al x)
    (hN : ∀ t, Begins nslots aw al x t → 1 ≤ wordsOf aw al (x t).frame_size) (u : Nat) :
    ((dma nslots aw al x u).fsm = .transferPixels →
      ∃ t n, u = t + 1 + n ∧ Begins nslots aw al x t ∧
        countIn (fire x) (t + 1) n < wordsOf aw al (x t).frame_size) ∧
    ((dma nslots aw al x u).fsm = .eof →
      ∃ t n m, u = t + 1 + n + 1 + m ∧ Begins nslots aw al x t ∧
        countIn (fire x) (t + 1) n + 1 = wordsOf aw al (x t).frame_size ∧
        fire x (t + 1 + n) = true ∧
        ∀ v, v < m → (x (t + 1 + n + 1 + v)).wdataValid = true) := by
  obtain ⟨h1, h2⟩ := origin_from (t0 := 0) (owned_from own 0) rfl (fun t _ => hN t) u (Nat.zero_le _)
  refine ⟨fun h => ?_, fun h => ?_⟩
  · obtain ⟨t, n, -, h⟩ := h1 h
    exact ⟨t, n, h⟩
  · obtain ⟨t, n, m, -, h⟩ := h2 h
    exact ⟨t, n, m, h⟩

end Verif.Dma
