import Verif.Proofs.Dma
import Verif.Proofs.Frame422

/-!
# C16, C17, C69 - C71: capture DMA and slots
-/

namespace Verif.Props

open Verif.Dma Verif.Spec.Dma Verif.Spec.Frame Verif.Spec.Stream

variable {α : Type}

/-- **C16** Every memory write belongs to a transfer: it began at some earlier clock `t` with a
start-of-frame word and a LOADED slot; the slot is still LOADED and its registers are what they
were; and the address is the slot's address plus the number `i` of words written so far, which is
below the frame size.  The data is the word taken from the frame stream at the same clock. -/
theorem C16_write (nslots aw al : Nat) (x : Nat → In α) (own : Owned nslots aw al x)
    (hN : ∀ t, Begins nslots aw al x t → 1 ≤ wordsOf aw al (x t).frame_size) (u : Nat)
    (hw : writes (dma nslots aw al x u) (x u) = true) :
    ∃ t n, u = t + 1 + n ∧ Begins nslots aw al x t ∧
      let s := dma nslots aw al x t
      let s' := dma nslots aw al x u
      let i := (writesIn nslots aw al x (t + 1) n).length
      s'.current_slot = s.current_slot ∧ s'.slots s.current_slot = s.slots s.current_slot ∧
      addressValid s' = true ∧
      i < wordsOf aw al (x t).frame_size ∧
      busWord s' (x u) = (((s.slots s.current_slot).word aw al + i) % 2 ^ aw, (x u).pixels) ∧
      frameReady s' (x u) = true ∧ (x u).valid = true := by
  have hf : (dma nslots aw al x u).fsm = .transferPixels := by
    simp only [writes, busValid, Bool.and_eq_true, decide_eq_true_eq] at hw
    exact hw.1.1
  obtain ⟨t, n, hu, hb, hc⟩ := (origin own hN u).1 hf
  obtain ⟨i1, i2, i3, i4, -, i6, -⟩ := transfer_inv (owned_from own _) hb n hc
  rw [← hu] at i1 i2 i3 i4
  refine ⟨t, n, hu, hb, i2, i3, ?_, ?_, ?_, ?_, ?_⟩
  · unfold addressValid
    rw [i2, i3]; exact hb.2.1
  · rw [i6]
    simp only [block, List.length_mapIdx, pickIn_length]
    exact hc
  · unfold busWord
    rw [i4, i6]
    simp only [block, List.length_mapIdx]
  · simp only [writes, Bool.and_eq_true] at hw
    simp only [frameReady, hf, hw.2]
  · simp only [writes, busValid, Bool.and_eq_true] at hw
    exact hw.1.2

/-- **C16** When a transfer is reported done at clock `e`, and the DMA was idle at clock `t0` (with
software keeping the rules from then on), the transfer began after `t0` and has written exactly `frame_size` words
since it began, namely the words taken from the frame stream in the meantime, in order, at
consecutive addresses from the slot's address on; the slot is the one that is current at `e`. -/
theorem C16_block_from (nslots aw al : Nat) (x : Nat → In α) (t0 : Nat)
    (idle : (dma nslots aw al x t0).fsm = .waitSof) (own : OwnedFrom nslots aw al x t0)
    (hN : ∀ t, t0 ≤ t → Begins nslots aw al x t → 1 ≤ wordsOf aw al (x t).frame_size) (e : Nat)
    (he : t0 ≤ e) (hd : addressDone (dma nslots aw al x e) (x e) = true) :
    ∃ t n, t0 ≤ t ∧ e = t + 1 + n ∧ Begins nslots aw al x t ∧
      let s := dma nslots aw al x t
      let ws := takenIn nslots aw al x (t + 1) (n + 1)
      (dma nslots aw al x e).current_slot = s.current_slot ∧
      ws.length = wordsOf aw al (x t).frame_size ∧
      writesIn nslots aw al x (t + 1) (n + 1) =
        block aw ((s.slots s.current_slot).word aw al) ws := by
  have hf : (dma nslots aw al x e).fsm = .eof := by
    simp only [addressDone, Bool.and_eq_true, decide_eq_true_eq] at hd
    exact hd.1
  obtain ⟨t, n, m, ht0, hu, hb, hc, hfi, hdr⟩ := (origin_from own idle hN e he).2 hf
  obtain ⟨i1, i2, i3, i4, i5, i6, i7⟩ := transfer_end (owned_mono own ht0) hb n hc hfi
  obtain ⟨-, j2, -, -, j5, j6⟩ := eof_inv (owned_mono own (by omega)) i1 i2 (by rw [i3]; exact hb.2.1) m hdr
  have hw : writes (dma nslots aw al x e) (x e) = false := by simp [writes, busValid, hf]
  have hfr : ((x e).valid && frameReady (dma nslots aw al x e) (x e)) = false := by
    simp [frameReady, hf]
  have e1 : writesIn nslots aw al x (t + 1) (n + 1 + m + 1) =
      writesIn nslots aw al x (t + 1) (n + 1) := by
    unfold writesIn at j5 ⊢
    rw [pickIn, show t + 1 + (n + 1 + m) = e by omega, hw]
    have := Frame.pickIn_add (fun u => writes (dma nslots aw al x u) (x u))
      (fun u => busWord (dma nslots aw al x u) (x u)) (t + 1) (n + 1) m
    rw [this, show t + 1 + (n + 1) = t + 1 + n + 1 by omega, j5]
    simp
  have e2 : takenIn nslots aw al x (t + 1) (n + 1 + m + 1) =
      takenIn nslots aw al x (t + 1) (n + 1) := by
    unfold takenIn at j6 ⊢
    rw [pickIn, show t + 1 + (n + 1 + m) = e by omega, hfr]
    have := Frame.pickIn_add (fun u => (x u).valid && frameReady (dma nslots aw al x u) (x u))
      (fun u => (x u).pixels) (t + 1) (n + 1) m
    rw [this, show t + 1 + (n + 1) = t + 1 + n + 1 by omega, j6]
    simp
  refine ⟨t, n + 1 + m, ht0, by omega, hb, by rw [hu]; exact j2, ?_, ?_⟩
  · rw [e2, i7]; exact i5
  · rw [e1, e2, i7]; exact i6

/-- **C16** The same for every transfer since reset. -/
theorem C16_block (nslots aw al : Nat) (x : Nat → In α) (own : Owned nslots aw al x)
    (hN : ∀ t, Begins nslots aw al x t → 1 ≤ wordsOf aw al (x t).frame_size) (e : Nat)
    (hd : addressDone (dma nslots aw al x e) (x e) = true) :
    ∃ t n, e = t + 1 + n ∧ Begins nslots aw al x t ∧
      let s := dma nslots aw al x t
      let ws := takenIn nslots aw al x (t + 1) (n + 1)
      (dma nslots aw al x e).current_slot = s.current_slot ∧
      ws.length = wordsOf aw al (x t).frame_size ∧
      writesIn nslots aw al x (t + 1) (n + 1) =
        block aw ((s.slots s.current_slot).word aw al) ws := by
  obtain ⟨t, n, -, h⟩ := C16_block_from nslots aw al x 0 rfl (owned_from own 0) (fun t _ => hN t) e
    (Nat.zero_le _) hd
  exact ⟨t, n, h⟩

/-- **C16** A slot that is large enough is not overrun: addresses stay in
`[address, address + frame_size)`. -/
theorem C16_no_overrun (aw a N : Nat) (ws : List α) (hlen : ws.length = N) (hfit : a + N ≤ 2 ^ aw) :
    ∀ p ∈ block aw a ws, a ≤ p.1 ∧ p.1 < a + N := by
  intro p hp
  unfold block at hp
  rw [List.mem_iff_getElem] at hp
  obtain ⟨i, hi, rfl⟩ := hp
  rw [List.length_mapIdx] at hi
  rw [List.getElem_mapIdx]
  simp only
  rw [Nat.mod_eq_of_lt (by omega)]
  omega

/-- **C16** The first word written is the start-of-frame word that began the transfer, if the stream
holds a word until it is taken. -/
theorem C16_first_word (nslots aw al : Nat) (x : Nat → In α)
    (held : Held nslots aw al x) (t n : Nat) (hb : Begins nslots aw al x t) :
    let taken := pickIn (fun u => (x u).valid && frameReady (dma nslots aw al x u) (x u))
      (fun u => ((x u).sof, (x u).pixels)) (t + 1) n
    taken = [] ∨ taken.head? = some (true, (x t).pixels) := by
  intro taken
  -- as long as nothing is taken the same word is offered
  have key : ∀ n, countIn (fun u => (x u).valid && frameReady (dma nslots aw al x u) (x u))
      (t + 1) n = 0 → ((x (t + 1 + n)).valid = true ∧ (x (t + 1 + n)).sof = true ∧
        (x (t + 1 + n)).pixels = (x t).pixels) := by
    intro n
    induction n with
    | zero =>
      intro _
      obtain ⟨h1, h2, h3, h4⟩ := hb
      have := held t h4 (by simp [frameReady, h1, h2, h3])
      exact ⟨this.1, by rw [this.2.1, h3], this.2.2⟩
    | succ n ih =>
      intro h
      rw [countIn] at h
      obtain ⟨i1, i2, i3⟩ := ih (by omega)
      have hr : frameReady (dma nslots aw al x (t + 1 + n)) (x (t + 1 + n)) = false := by
        rw [Bool.eq_false_iff]
        intro hr
        rw [i1, hr] at h
        simp at h
      have := held _ i1 hr
      exact ⟨this.1, this.2.1.trans i2, this.2.2.trans i3⟩
  show taken = [] ∨ _
  induction n with
  | zero => left; rfl
  | succ n ih =>
    set fire' := fun u => (x u).valid && frameReady (dma nslots aw al x u) (x u) with hfire
    set word := fun u => ((x u).sof, (x u).pixels) with hword
    have hsucc : taken = pickIn fire' word (t + 1) n ++
      (if fire' (t + 1 + n) then [word (t + 1 + n)] else []) := rfl
    rcases ih with h | h
    · by_cases hf : fire' (t + 1 + n) = true
      · right
        have hc : countIn fire' (t + 1) n = 0 := by
          rw [← pickIn_length fire' word, h]; rfl
        obtain ⟨i1, i2, i3⟩ := key n hc
        rw [hsucc, h, if_pos hf]
        simp [hword, i2, i3]
      · left
        rw [hsucc, h, if_neg hf]; rfl
    · right
      rw [hsucc]
      cases hl : pickIn fire' word (t + 1) n with
      | nil => rw [hl] at h; exact absurd h (by simp)
      | cons p l => rw [hl] at h; simpa using h

/-- **C16** A transfer that has begun completes once the stream and the memory have exchanged
`frame_size` words and the memory port has then drained. -/
theorem C16_completes (nslots aw al : Nat) (x : Nat → In α) (own : Owned nslots aw al x)
    (t n v : Nat) (hb : Begins nslots aw al x t)
    (hN : 1 ≤ wordsOf aw al (x t).frame_size)
    (hc : wordsOf aw al (x t).frame_size ≤
      countIn (fun u => (x u).valid && (x u).busReady) (t + 1) n)
    (hv : t + 1 + n ≤ v) (hdr : (x v).wdataValid = false) :
    ∃ e, t < e ∧ e ≤ v ∧ addressDone (dma nslots aw al x e) (x e) = true := by
  -- the clock of the last word
  have hlast : ∀ n, wordsOf aw al (x t).frame_size ≤ countIn (fire x) (t + 1) n →
      ∃ k, k < n ∧ countIn (fire x) (t + 1) k + 1 = wordsOf aw al (x t).frame_size ∧
        fire x (t + 1 + k) = true := by
    intro n
    induction n with
    | zero => intro h; simp [countIn] at h; omega
    | succ n ih =>
      intro h
      by_cases hlt : wordsOf aw al (x t).frame_size ≤ countIn (fire x) (t + 1) n
      · obtain ⟨k, hk, h1, h2⟩ := ih hlt
        exact ⟨k, by omega, h1, h2⟩
      · rw [countIn] at h
        by_cases hf : fire x (t + 1 + n) = true
        · rw [if_pos hf] at h
          exact ⟨n, by omega, by omega, hf⟩
        · rw [if_neg hf] at h; omega
  obtain ⟨k, hk, h1, h2⟩ := hlast n hc
  obtain ⟨i1, i2, i3, -⟩ := transfer_end (owned_from own _) hb k h1 h2
  -- the first clock from then on at which the port is drained
  have hfirst : ∀ m, (∀ j, j < m → (x (t + 1 + k + 1 + j)).wdataValid = true) ∨
      ∃ j, j < m ∧ (x (t + 1 + k + 1 + j)).wdataValid = false ∧
        ∀ i, i < j → (x (t + 1 + k + 1 + i)).wdataValid = true := by
    intro m
    induction m with
    | zero => left; intro j hj; omega
    | succ m ih =>
      rcases ih with h | ⟨j, hj, h3, h4⟩
      · by_cases hw : (x (t + 1 + k + 1 + m)).wdataValid = true
        · left
          intro j hj
          rcases Nat.lt_or_eq_of_le (Nat.le_of_lt_succ hj) with h' | rfl
          · exact h j h'
          · exact hw
        · right; exact ⟨m, by omega, Bool.eq_false_iff.2 hw, h⟩
      · right; exact ⟨j, by omega, h3, h4⟩
  rcases hfirst (v - (t + 1 + k + 1) + 1) with h | ⟨j, hj, h3, h4⟩
  · have := h (v - (t + 1 + k + 1)) (by omega)
    rw [show t + 1 + k + 1 + (v - (t + 1 + k + 1)) = v by omega, hdr] at this
    exact absurd this (by decide)
  · obtain ⟨j1, -⟩ := eof_inv (owned_from own _) i1 i2 (by rw [i3]; exact hb.2.1) j h4
    exact ⟨t + 1 + k + 1 + j, by omega, by omega, by simp [addressDone, j1, h3]⟩

/-- **C17** When a transfer is done, its slot becomes PENDING with its address register pointing
behind the last word, and for all other slots nothing happens but what software writes. -/
theorem C17_done (nslots aw al : Nat) (x : Nat → In α) (own : Owned nslots aw al x)
    (hN : ∀ t, Begins nslots aw al x t → 1 ≤ wordsOf aw al (x t).frame_size) (e : Nat)
    (hd : addressDone (dma nslots aw al x e) (x e) = true) :
    ∃ t, t < e ∧ Begins nslots aw al x t ∧
      let s := dma nslots aw al x t
      let k := s.current_slot
      ((dma nslots aw al x e).slots k).valid = true ∧
      (dma nslots aw al x (e + 1)).slots k =
        { status := 2
          address := ((s.slots k).word aw al + wordsOf aw al (x t).frame_size) % 2 ^ aw * 2 ^ al } ∧
      ((dma nslots aw al x (e + 1)).slots k).valid = false ∧
      ((dma nslots aw al x (e + 1)).slots k).pending = true ∧
      ∀ n, n ≠ k → (dma nslots aw al x (e + 1)).slots n =
        { status := ((x e).sw n).status.getD ((dma nslots aw al x e).slots n).status
          address := ((x e).sw n).address.getD ((dma nslots aw al x e).slots n).address } := by
  have hf : (dma nslots aw al x e).fsm = .eof := by
    simp only [addressDone, Bool.and_eq_true, decide_eq_true_eq] at hd
    exact hd.1
  obtain ⟨t, n, m, hu, hb, hc, hfi, hdr⟩ := (origin own hN e).2 hf
  obtain ⟨i1, i2, i3, i4, i5, -, -⟩ := transfer_end (owned_from own _) hb n hc hfi
  obtain ⟨j1, j2, j3, j4, -, -⟩ := eof_inv (owned_from own _) i1 i2 (by rw [i3]; exact hb.2.1) m hdr
  rw [← hu] at j1 j2 j3 j4
  have hv : ((dma nslots aw al x e).slots (dma nslots aw al x t).current_slot).valid = true := by
    rw [j3, i3]; exact hb.2.1
  have hslot : (dma nslots aw al x (e + 1)).slots (dma nslots aw al x t).current_slot =
      { status := 2
        address := (((dma nslots aw al x t).slots (dma nslots aw al x t).current_slot).word aw al +
          wordsOf aw al (x t).frame_size) % 2 ^ aw * 2 ^ al } := by
    show ((dma nslots aw al x e).slots _).step al ((x e).sw _)
      (addressDone (dma nslots aw al x e) (x e) &&
        decide ((dma nslots aw al x e).current_slot = (dma nslots aw al x t).current_slot))
      (dma nslots aw al x e).current_address = _
    rw [own e _ hv, hd, j2, j4, i4, i5]
    simp [Slot.step]
  refine ⟨t, by omega, hb, hv, hslot, ?_, ?_, ?_⟩
  · rw [hslot]; simp [Slot.valid]
  · rw [hslot]; simp [Slot.pending]
  · intro n hn
    show ((dma nslots aw al x e).slots n).step al ((x e).sw n)
      (addressDone (dma nslots aw al x e) (x e) &&
        decide ((dma nslots aw al x e).current_slot = n)) _ = _
    have : decide ((dma nslots aw al x e).current_slot = n) = false := by
      rw [decide_eq_false_iff_not, j2]; exact fun h => hn h.symm
    rw [this, Bool.and_false]
    rfl

/-- **C17** Except at the end of a transfer the hardware changes no slot. -/
theorem C17_untouched (nslots aw al : Nat) (x : Nat → In α) (u n : Nat)
    (hd : addressDone (dma nslots aw al x u) (x u) = false ∨
      (dma nslots aw al x u).current_slot ≠ n) :
    (dma nslots aw al x (u + 1)).slots n =
      { status := ((x u).sw n).status.getD ((dma nslots aw al x u).slots n).status
        address := ((x u).sw n).address.getD ((dma nslots aw al x u).slots n).address } := by
  show ((dma nslots aw al x u).slots n).step al ((x u).sw n)
    (addressDone (dma nslots aw al x u) (x u) &&
      decide ((dma nslots aw al x u).current_slot = n)) _ = _
  rcases hd with h | h
  · rw [h]; rfl
  · rw [decide_eq_false h, Bool.and_false]; rfl

/-- `k` is the lowest-numbered LOADED slot of `s`. -/
def LowestLoaded (nslots : Nat) (s : State) (k : Nat) : Prop :=
  k < nslots ∧ (s.slots k).valid = true ∧ ∀ j, j < k → (s.slots j).valid = false

theorem selectSlot_lowest {nslots : Nat} {s : State} {k : Nat} (h : LowestLoaded nslots s k) :
    selectSlot nslots s = k := by
  obtain ⟨h1, h2, h3⟩ := h
  unfold selectSlot
  have : (List.range nslots).find? (fun n => (s.slots n).valid) = some k := by
    rw [List.find?_range_eq_some]
    refine ⟨h2, List.mem_range.2 h1, fun j hj => ?_⟩
    simp [h3 j hj]
  rw [this]; rfl

/-- **C17** When the current slot is not LOADED, or the current transfer is done, the lowest-numbered
LOADED slot becomes the current one. -/
theorem C17_lowest_first (nslots aw al : Nat) (x : Nat → In α) (u k : Nat)
    (hch : addressValid (dma nslots aw al x u) = false ∨
      addressDone (dma nslots aw al x u) (x u) = true)
    (hk : LowestLoaded nslots (dma nslots aw al x u) k) :
    (dma nslots aw al x (u + 1)).current_slot = k := by
  show (if !addressValid (dma nslots aw al x u) || addressDone (dma nslots aw al x u) (x u) then
    selectSlot nslots (dma nslots aw al x u) else _) = _
  rw [if_pos, selectSlot_lowest hk]
  rcases hch with h | h <;> simp [h]

/-- **C17** Otherwise the current slot does not change. -/
theorem C17_keeps_slot (nslots aw al : Nat) (x : Nat → In α) (u : Nat)
    (hv : addressValid (dma nslots aw al x u) = true)
    (hd : addressDone (dma nslots aw al x u) (x u) = false) :
    (dma nslots aw al x (u + 1)).current_slot = (dma nslots aw al x u).current_slot := by
  show (if !addressValid (dma nslots aw al x u) || addressDone (dma nslots aw al x u) (x u) then
    _ else (dma nslots aw al x u).current_slot) = _
  rw [hv, hd]; rfl

/-- Some slot is LOADED: then there is a lowest one. -/
theorem exists_lowest {nslots : Nat} {s : State} {n : Nat} (hn : n < nslots)
    (hv : (s.slots n).valid = true) : ∃ k, k ≤ n ∧ LowestLoaded nslots s k := by
  induction n using Nat.strongRecOn with
  | ind n ih =>
    by_cases h : ∃ j, j < n ∧ (s.slots j).valid = true
    · obtain ⟨j, hj, hjv⟩ := h
      obtain ⟨k, hk, hl⟩ := ih j hj (by omega) hjv
      exact ⟨k, by omega, hl⟩
    · refine ⟨n, Nat.le_refl _, hn, hv, fun j hj => ?_⟩
      rw [Bool.eq_false_iff]
      exact fun hh => h ⟨j, hj, hh⟩

/-- **C17** A slot leaves the LOADED state only when its last word has been handed to the memory
and the memory port has drained. -/
theorem C17_leaves_loaded (nslots aw al : Nat) (x : Nat → In α) (own : Owned nslots aw al x)
    (u n : Nat) (hv : ((dma nslots aw al x u).slots n).valid = true)
    (hv' : ((dma nslots aw al x (u + 1)).slots n).valid = false) :
    (dma nslots aw al x u).current_slot = n ∧ (dma nslots aw al x u).fsm = .eof ∧
      (x u).wdataValid = false := by
  by_cases h : addressDone (dma nslots aw al x u) (x u) = true ∧
      (dma nslots aw al x u).current_slot = n
  · have := h.1
    simp only [addressDone, Bool.and_eq_true, decide_eq_true_eq, Bool.not_eq_true'] at this
    exact ⟨h.2, this.1, this.2⟩
  · exfalso
    have hor : addressDone (dma nslots aw al x u) (x u) = false ∨
        (dma nslots aw al x u).current_slot ≠ n := by
      by_cases h1 : addressDone (dma nslots aw al x u) (x u) = true
      · right; exact fun h2 => h ⟨h1, h2⟩
      · left; exact Bool.eq_false_iff.2 h1
    have := C17_untouched nslots aw al x u n hor
    rw [own u n hv] at this
    rw [this] at hv'
    exact Bool.noConfusion (hv'.symm.trans hv)

theorem current_lt (nslots aw al : Nat) (hns : 0 < nslots) (x : Nat → In α) (u : Nat) :
    (dma nslots aw al x u).current_slot < nslots := by
  induction u with
  | zero => exact hns
  | succ u ih =>
    show (if _ then selectSlot nslots (dma nslots aw al x u) else _) < _
    split
    · unfold selectSlot
      cases hf : (List.range nslots).find? fun n => ((dma nslots aw al x u).slots n).valid with
      | none => exact ih
      | some k => exact List.mem_range.1 (List.mem_of_find?_eq_some hf)
    · exact ih

/-- **C72** While no slot is LOADED the DMA takes every word of the frame stream and writes
nothing. -/
theorem C72_drained (nslots aw al : Nat) (hns : 0 < nslots) (x : Nat → In α)
    (own : Owned nslots aw al x)
    (hN : ∀ t, Begins nslots aw al x t → 1 ≤ wordsOf aw al (x t).frame_size) (u : Nat)
    (hno : ∀ n, n < nslots → ((dma nslots aw al x u).slots n).valid = false) :
    frameReady (dma nslots aw al x u) (x u) = true ∧
      writes (dma nslots aw al x u) (x u) = false := by
  have hav : addressValid (dma nslots aw al x u) = false := hno _ (current_lt nslots aw al hns x u)
  have hf : (dma nslots aw al x u).fsm = .waitSof := by
    cases hf : (dma nslots aw al x u).fsm with
    | waitSof => rfl
    | transferPixels =>
      obtain ⟨t, n, hu, hb, hc⟩ := (origin own hN u).1 hf
      obtain ⟨i1, i2, i3, -⟩ := transfer_inv (owned_from own _) hb n hc
      rw [← hu] at i2 i3
      unfold addressValid at hav
      rw [i2, i3] at hav
      exact Bool.noConfusion (hav.symm.trans hb.2.1)
    | eof =>
      obtain ⟨t, n, m, hu, hb, hc, hfi, hdr⟩ := (origin own hN u).2 hf
      obtain ⟨i1, i2, i3, -⟩ := transfer_end (owned_from own _) hb n hc hfi
      obtain ⟨j1, j2, j3, -⟩ := eof_inv (owned_from own _) i1 i2 (by rw [i3]; exact hb.2.1) m hdr
      rw [← hu] at j2 j3
      unfold addressValid at hav
      rw [j2, j3, i3] at hav
      exact Bool.noConfusion (hav.symm.trans hb.2.1)
  simp [frameReady, writes, busValid, hf, hav]

/-- C71: a start-of-frame word offered while the DMA waits and some slot is LOADED is not thrown
away. -/
def C71_statement : Prop :=
  ∀ (nslots aw al : Nat) (x : Nat → In Nat), Owned nslots aw al x → ∀ u n, n < nslots →
    (dma nslots aw al x u).fsm = .waitSof →
    ((dma nslots aw al x u).slots n).valid = true → (x u).valid = true → (x u).sof = true →
    frameReady (dma nslots aw al x u) (x u) = false

/-- The witness: software loads slots 0 and 1 at clock 0; the stream has frames of two words back
to back; the frame size is two words. -/
def backToBack (t : Nat) : In Nat :=
  { valid := 2 ≤ t, sof := t == 2 || t == 3 || 5 ≤ t, pixels := t, busReady := true
    wdataValid := false, frame_size := 2
    sw := fun n => if t = 0 ∧ n < 2 then ⟨some 1, some (100 * n)⟩ else ⟨none, none⟩ }

theorem backToBack_owned : Owned 2 10 0 backToBack := by
  intro t n hv
  by_cases ht : t = 0
  · subst ht
    exact absurd hv (by simp [dma, trace, reset, Slot.valid])
  · have : ¬ (t = 0 ∧ n < 2) := fun h => ht h.1
    simp [backToBack, this]

/-- **C71** is false of the code: at the clock after a transfer is done the finished slot may still
be the current one, and a start-of-frame word offered at that clock is taken and dropped, and with it
the frame. -/
theorem C71_violated : ¬ C71_statement := by
  intro h
  have := h 2 10 0 backToBack backToBack_owned 6 1 (by decide) (by decide) (by decide) (by decide)
    (by decide)
  exact absurd this (by decide)

/-- **C71**, the part that holds: if at the clock before the DMA was waiting, too, and the slot was
LOADED, a start-of-frame word is not thrown away. -/
theorem C71_kept_partial (nslots aw al : Nat) (x : Nat → In α) (own : Owned nslots aw al x)
    (u n : Nat) (hn : n < nslots)
    (hf : (dma nslots aw al x u).fsm = .waitSof)
    (hv : ((dma nslots aw al x u).slots n).valid = true)
    (hf' : (dma nslots aw al x (u + 1)).fsm = .waitSof) (hs : (x (u + 1)).sof = true) :
    frameReady (dma nslots aw al x (u + 1)) (x (u + 1)) = false := by
  have hd : addressDone (dma nslots aw al x u) (x u) = false := by simp [addressDone, hf]
  have hval : addressValid (dma nslots aw al x (u + 1)) = true := by
    unfold addressValid
    by_cases ha : addressValid (dma nslots aw al x u) = true
    · rw [C17_keeps_slot nslots aw al x u ha hd,
        slot_kept (owned_from own 0) u _ (Nat.zero_le _) ha (by rw [hd]; rfl)]
      exact ha
    · obtain ⟨k, -, hk⟩ := exists_lowest hn hv
      rw [C17_lowest_first nslots aw al x u k (Or.inl (Bool.eq_false_iff.2 ha)) hk,
        slot_kept (owned_from own 0) u _ (Nat.zero_le _) hk.2.1 (by rw [hd]; rfl)]
      exact hk.2.1
  simp [frameReady, hf', hval, hs]

/-- C69: a frame size of less than one word captures nothing. -/
def C69_statement : Prop :=
  ∀ (nslots aw al : Nat) (x : Nat → In Nat), Owned nslots aw al x →
    (∀ t, wordsOf aw al (x t).frame_size = 0) → ∀ t, writes (dma nslots aw al x t) (x t) = false

/-- Witness: as `backToBack`, without a frame size. -/
def zeroSize (t : Nat) : In Nat := { backToBack t with frame_size := 0 }

theorem zeroSize_owned : Owned 2 10 0 zeroSize := by
  intro t n hv
  by_cases ht : t = 0
  · subst ht
    exact absurd hv (by simp [dma, trace, reset, Slot.valid])
  · have : ¬ (t = 0 ∧ n < 2) := fun h => ht h.1
    simp [zeroSize, backToBack, this]

/-- **C69** is false of the code. -/
theorem C69_violated : ¬ C69_statement := by
  intro h
  have := h 2 10 0 zeroSize zeroSize_owned (fun t => by simp [zeroSize, wordsOf]) 3
  exact absurd this (by decide)

/-- **C69** With `frame_size` zero the word counter wraps: the transfer does not stop before it has
written to every address of the memory.  After any number `c < 2^aw` of written words it is still
running, at address `a + c`. -/
theorem C69_whole_memory (nslots aw al : Nat) (x : Nat → In α)
    (t n : Nat) (hb : Begins nslots aw al x t) (h0 : wordsOf aw al (x t).frame_size = 0)
    (hc : countIn (fun u => (x u).valid && (x u).busReady) (t + 1) n < 2 ^ aw) :
    let s := dma nslots aw al x t
    let c := countIn (fun u => (x u).valid && (x u).busReady) (t + 1) n
    (dma nslots aw al x (t + 1 + n)).fsm = .transferPixels ∧
    (dma nslots aw al x (t + 1 + n)).current_address =
      ((s.slots s.current_slot).word aw al + c) % 2 ^ aw := by
  intro s
  obtain ⟨h1, h2, h3, h4⟩ := hb
  have key : ∀ n, countIn (fire x) (t + 1) n < 2 ^ aw →
      (dma nslots aw al x (t + 1 + n)).fsm = .transferPixels ∧
      (dma nslots aw al x (t + 1 + n)).current_address =
        ((s.slots s.current_slot).word aw al + countIn (fire x) (t + 1) n) % 2 ^ aw ∧
      (dma nslots aw al x (t + 1 + n)).mwords_remaining =
        (2 ^ aw - countIn (fire x) (t + 1) n) % 2 ^ aw := by
    intro n
    induction n with
    | zero =>
      intro _
      refine ⟨?_, ?_, ?_⟩
      · show (match s.fsm with
          | .waitSof => if addressValid s && (x t).sof && (x t).valid then Fsm.transferPixels
            else .waitSof
          | .transferPixels => _
          | .eof => _) = _
        rw [h1, h2, h3, h4]; rfl
      · show (if s.fsm = .waitSof then (s.slots s.current_slot).word aw al else _) = _
        rw [if_pos h1]
        exact (Nat.mod_eq_of_lt (wordsOf_lt aw al _)).symm
      · show (if s.fsm = .waitSof then wordsOf aw al (x t).frame_size else _) = _
        rw [if_pos h1, h0]
        exact (Nat.mod_self _).symm
    | succ n ih =>
      intro hc
      have hcs : countIn (fire x) (t + 1) (n + 1) = countIn (fire x) (t + 1) n +
        (if fire x (t + 1 + n) then 1 else 0) := rfl
      obtain ⟨i1, i2, i3⟩ := ih (by omega)
      set r := dma nslots aw al x (t + 1 + n) with hr
      have hw : writes r (x (t + 1 + n)) = fire x (t + 1 + n) := by
        simp [writes, busValid, fire, i1]
      by_cases hf : fire x (t + 1 + n) = true
      · rw [if_pos hf] at hcs
        refine ⟨?_, ?_, ?_⟩
        · show (match r.fsm with
            | .waitSof => _
            | .transferPixels => if (x (t + 1 + n)).valid && (x (t + 1 + n)).busReady &&
                decide (r.mwords_remaining = 1) then Fsm.eof else .transferPixels
            | .eof => _) = _
          rw [i1]
          show (if fire x (t + 1 + n) && decide (r.mwords_remaining = 1) then Fsm.eof
            else .transferPixels) = _
          rw [if_neg]
          rw [hf, Bool.true_and, decide_eq_true_eq, i3]
          rcases Nat.eq_zero_or_pos (countIn (fire x) (t + 1) n) with h | h
          · rw [h]; simp
          · rw [Nat.mod_eq_of_lt (by omega)]; omega
        · show (if r.fsm = .waitSof then _ else if writes r (x (t + 1 + n)) then
            (r.current_address + 1) % 2 ^ aw else r.current_address) = _
          rw [if_neg (by rw [i1]; decide), hw, if_pos hf, i2, hcs]
          simp [Nat.add_assoc]
        · show (if r.fsm = .waitSof then _ else if writes r (x (t + 1 + n)) then
            (r.mwords_remaining + 2 ^ aw - 1) % 2 ^ aw else r.mwords_remaining) = _
          rw [if_neg (by rw [i1]; decide), hw, if_pos hf, i3, hcs]
          rcases Nat.eq_zero_or_pos (countIn (fire x) (t + 1) n) with h | h
          · rw [h, Nat.sub_zero, Nat.mod_self, Nat.zero_add, Nat.zero_add]
          · rw [Nat.mod_eq_of_lt (show 2 ^ aw - countIn (fire x) (t + 1) n < 2 ^ aw by omega),
              show 2 ^ aw - countIn (fire x) (t + 1) n + 2 ^ aw - 1 =
                (2 ^ aw - (countIn (fire x) (t + 1) n + 1)) + 2 ^ aw by omega, Nat.add_mod_right]
      · rw [if_neg hf, Nat.add_zero] at hcs
        rw [hcs]
        refine ⟨?_, ?_, ?_⟩
        · show (match r.fsm with
            | .waitSof => _
            | .transferPixels => if (x (t + 1 + n)).valid && (x (t + 1 + n)).busReady &&
                decide (r.mwords_remaining = 1) then Fsm.eof else .transferPixels
            | .eof => _) = _
          rw [i1]
          show (if fire x (t + 1 + n) && decide (r.mwords_remaining = 1) then Fsm.eof
            else .transferPixels) = _
          rw [Bool.eq_false_iff.2 hf]; rfl
        · show (if r.fsm = .waitSof then _ else if writes r (x (t + 1 + n)) then _
            else r.current_address) = _
          rw [if_neg (by rw [i1]; decide), hw, if_neg hf, i2]; rfl
        · show (if r.fsm = .waitSof then _ else if writes r (x (t + 1 + n)) then _
            else r.mwords_remaining) = _
          rw [if_neg (by rw [i1]; decide), hw, if_neg hf, i3]; rfl
  exact ⟨(key n hc).1, (key n hc).2.1⟩

/-- Hypotheses of `C69_whole_memory` and its effect on the witness: 20 words written although the
frame size is zero. -/
example : Begins 2 10 0 zeroSize 2 ∧ (writesIn 2 10 0 zeroSize 3 20).length = 20 := by
  unfold Begins
  decide +kernel

/-- C70: a captured block holds words of a single frame: in a transfer that has begun at clock `t` and has
gone on until clock `t + 1 + n`, only the first word written is a start of frame. -/
def C70_statement : Prop :=
  ∀ (nslots aw al : Nat) (x : Nat → In Nat), Owned nslots aw al x → Held nslots aw al x →
    ∀ t n, Begins nslots aw al x t →
    (∀ m, m ≤ n → (dma nslots aw al x (t + 1 + m)).fsm = .transferPixels) →
    writesIn nslots aw al x (t + 1) n ≠ [] →
    writes (dma nslots aw al x (t + 1 + n)) (x (t + 1 + n)) = true →
    (x (t + 1 + n)).sof = false

/-- Witness: one-word frames, a frame size of two words. -/
def shortFrames (t : Nat) : In Nat :=
  { valid := true, sof := true, pixels := 0, busReady := true
    wdataValid := false, frame_size := 2
    sw := fun n => if t = 0 ∧ n < 2 then ⟨some 1, some (100 * n)⟩ else ⟨none, none⟩ }

theorem shortFrames_owned : Owned 2 10 0 shortFrames := by
  intro t n hv
  by_cases ht : t = 0
  · subst ht
    exact absurd hv (by simp [dma, trace, reset, Slot.valid])
  · have : ¬ (t = 0 ∧ n < 2) := fun h => ht h.1
    simp [shortFrames, this]

/-- **C70** is false of the code: a frame shorter than `frame_size` (for example because words were
lost, or the source changed its resolution) is continued with the next frame. -/
theorem C70_violated : ¬ C70_statement := by
  intro h
  have := h 2 10 0 shortFrames shortFrames_owned (fun t _ _ => ⟨rfl, rfl, rfl⟩) 1 1
    (by unfold Begins; decide) (by decide) (by decide) (by decide)
  exact absurd this (by decide)

theorem countIn_first (p : Nat → Bool) (t n : Nat) (h : 0 < countIn p t n) :
    ∃ j, j < n ∧ p (t + j) = true ∧ countIn p t j = 0 := by
  induction n with
  | zero => exact absurd h (by simp [countIn])
  | succ n ih =>
    by_cases h0 : 0 < countIn p t n
    · obtain ⟨j, h1, h2, h3⟩ := ih h0
      exact ⟨j, by omega, h2, h3⟩
    · refine ⟨n, by omega, ?_, by omega⟩
      rw [countIn] at h
      by_contra hp
      simp only [Bool.not_eq_true] at hp
      rw [hp] at h
      simp at h
      omega

theorem countIn_split (p : Nat → Bool) (t a b : Nat) :
    countIn p t (a + b) = countIn p t a + countIn p (t + a) b := by
  induction b with
  | zero => rfl
  | succ b ih =>
    rw [← Nat.add_assoc, countIn, countIn, ih, ← Nat.add_assoc, Nat.add_assoc t a b]
    omega

/-- **C70**, the part that holds: if between two start-of-frame words at least `frame_size` words are
taken (counting the first of the two), i.e. if no frame is shorter than `frame_size`, a block holds one
frame only.  Missing: shorter frames (`C70_violated`). -/
theorem C70_long_frames_partial (nslots aw al N : Nat) (x : Nat → In α) (own : Owned nslots aw al x)
    (held : Held nslots aw al x) (hN : 1 ≤ N) (hsize : ∀ t, wordsOf aw al (x t).frame_size = N)
    (long : ∀ u d, (x u).valid = true → frameReady (dma nslots aw al x u) (x u) = true →
      (x u).sof = true → (x (u + 1 + d)).valid = true →
      frameReady (dma nslots aw al x (u + 1 + d)) (x (u + 1 + d)) = true →
      (x (u + 1 + d)).sof = true → N ≤ (takenIn nslots aw al x u (d + 1)).length)
    (t n : Nat) (hb : Begins nslots aw al x t)
    (hf : ∀ m, m ≤ n → (dma nslots aw al x (t + 1 + m)).fsm = .transferPixels)
    (hne : writesIn nslots aw al x (t + 1) n ≠ [])
    (hw : writes (dma nslots aw al x (t + 1 + n)) (x (t + 1 + n)) = true) :
    (x (t + 1 + n)).sof = false := by
  obtain ⟨t', n', hu, hb', hc⟩ := (origin own (fun u _ => by rw [hsize]; exact hN) (t + 1 + n)).1
    (hf n (Nat.le_refl _))
  have ht : t' = t := by
    rcases Nat.lt_trichotomy t' t with h | h | h
    · have hm : n' = (t - (t' + 1)) + (n + 1) := by omega
      have hc' : countIn (fire x) (t' + 1) (t - (t' + 1)) < wordsOf aw al (x t').frame_size := by
        rw [hm, countIn_split] at hc
        omega
      have := (transfer_inv (owned_from own _) hb' _ hc').1
      rw [show t' + 1 + (t - (t' + 1)) = t by omega, hb.1] at this
      cases this
    · exact h
    · have := hf (t' - (t + 1)) (by omega)
      rw [show t + 1 + (t' - (t + 1)) = t' by omega, hb'.1] at this
      cases this
  subst ht
  have hn : n' = n := by omega
  subst hn
  obtain ⟨-, -, -, -, -, i6, i7⟩ := transfer_inv (owned_from own _) hb' n' hc
  by_contra hsof
  simp only [Bool.not_eq_false] at hsof
  have hlen : (takenIn nslots aw al x (t' + 1) n').length < N := by
    rw [i7, pickIn_length, ← hsize t']; exact hc
  have hpos : 0 < (takenIn nslots aw al x (t' + 1) n').length := by
    rw [i7]
    rw [i6] at hne
    refine Nat.pos_of_ne_zero fun h0 => hne ?_
    rw [List.length_eq_zero_iff.1 h0]; rfl
  unfold takenIn at hlen hpos
  rw [pickIn_length] at hlen hpos
  obtain ⟨j, hj, hj1, hj2⟩ := countIn_first _ _ _ hpos
  -- the first word of the transfer is a start of frame
  have hfirst : (x (t' + 1 + j)).sof = true := by
    have h0 : pickIn (fun u => (x u).valid && frameReady (dma nslots aw al x u) (x u))
        (fun u => ((x u).sof, (x u).pixels)) (t' + 1) j = [] := by
      rw [← List.length_eq_zero_iff, pickIn_length]; exact hj2
    rcases C16_first_word nslots aw al x held t' (j + 1) hb with h | h
    · rw [pickIn, h0, hj1] at h
      simp at h
    · rw [pickIn, h0, hj1] at h
      simp at h
      exact h.1
  rw [Bool.and_eq_true] at hj1
  have hv : (x (t' + 1 + n')).valid = true ∧
      frameReady (dma nslots aw al x (t' + 1 + n')) (x (t' + 1 + n')) = true := by
    have hff := hf n' (Nat.le_refl _)
    simp only [writes, busValid, Bool.and_eq_true] at hw
    exact ⟨hw.1.2, by simp only [frameReady, hff, hw.2]⟩
  have := long (t' + 1 + j) (n' - j - 1) hj1.1 hj1.2 hfirst
    (by rw [show t' + 1 + j + 1 + (n' - j - 1) = t' + 1 + n' by omega]; exact hv.1)
    (by rw [show t' + 1 + j + 1 + (n' - j - 1) = t' + 1 + n' by omega]; exact hv.2)
    (by rw [show t' + 1 + j + 1 + (n' - j - 1) = t' + 1 + n' by omega]; exact hsof)
  unfold takenIn at this
  rw [pickIn_length, show n' - j - 1 + 1 = n' - j by omega] at this
  have h2 := countIn_split (fun u => (x u).valid && frameReady (dma nslots aw al x u) (x u))
    (t' + 1) j (n' - j)
  rw [show j + (n' - j) = n' by omega] at h2
  omega

/-- Two frames of two words each, for `frame_size` of two words. -/
def wholeFrames (t : Nat) : In Nat :=
  { valid := decide (1 ≤ t ∧ t ≤ 3) || decide (6 ≤ t ∧ t ≤ 8), sof := decide (t ≠ 3 ∧ t ≠ 8)
    pixels := if t = 2 then 1 else if t = 7 then 6 else t
    busReady := true, wdataValid := false, frame_size := 2
    sw := fun n => if t = 0 ∧ n < 2 then ⟨some 1, some (100 * n)⟩ else ⟨none, none⟩ }

/-- Hypotheses of `C70_long_frames_partial`: both frames are captured, each in its own block. -/
example : Owned 2 10 0 wholeFrames ∧ Held 2 10 0 wholeFrames ∧
    (∀ t, wordsOf 10 0 (wholeFrames t).frame_size = 2) ∧
    (∀ u d, (wholeFrames u).valid = true →
      frameReady (dma 2 10 0 wholeFrames u) (wholeFrames u) = true → (wholeFrames u).sof = true →
      (wholeFrames (u + 1 + d)).valid = true →
      frameReady (dma 2 10 0 wholeFrames (u + 1 + d)) (wholeFrames (u + 1 + d)) = true →
      (wholeFrames (u + 1 + d)).sof = true → 2 ≤ (takenIn 2 10 0 wholeFrames u (d + 1)).length) ∧
    Begins 2 10 0 wholeFrames 1 ∧ Begins 2 10 0 wholeFrames 6 ∧
    writesIn 2 10 0 wholeFrames 0 10 = [(0, 1), (1, 3), (100, 6), (101, 8)] := by
  have hv : ∀ t, (wholeFrames t).valid = true → t < 9 := by
    intro t h
    simp [wholeFrames] at h
    omega
  refine ⟨?_, ?_, fun _ => by show wordsOf 10 0 2 = 2; decide, ?_, by unfold Begins; decide +kernel,
    by unfold Begins; decide +kernel, by decide +kernel⟩
  · intro t n h
    by_cases ht : t = 0
    · subst ht
      exact absurd h (by simp [dma, trace, reset, Slot.valid])
    · have : ¬ (t = 0 ∧ n < 2) := fun h => ht h.1
      simp [wholeFrames, this]
  · intro t h
    have : ∀ t, t < 9 → (wholeFrames t).valid = true →
      frameReady (dma 2 10 0 wholeFrames t) (wholeFrames t) = false →
      (wholeFrames (t + 1)).valid = true ∧ (wholeFrames (t + 1)).sof = (wholeFrames t).sof ∧
        (wholeFrames (t + 1)).pixels = (wholeFrames t).pixels := by decide +kernel
    exact this t (hv t h) h
  · intro u d h1 h2 h3 h4 h5 h6
    have : ∀ u, u < 9 → ∀ d, d < 9 → ((wholeFrames u).valid &&
      frameReady (dma 2 10 0 wholeFrames u) (wholeFrames u) && (wholeFrames u).sof &&
      (wholeFrames (u + 1 + d)).valid &&
      frameReady (dma 2 10 0 wholeFrames (u + 1 + d)) (wholeFrames (u + 1 + d)) &&
      (wholeFrames (u + 1 + d)).sof) = true →
      2 ≤ (takenIn 2 10 0 wholeFrames u (d + 1)).length := by decide +kernel
    exact this u (hv u h1) d (by have := hv _ h4; omega) (by rw [h1, h2, h3, h4, h5, h6]; rfl)

/-- Hypotheses of C16 and C17: software loads two slots; a frame of three words, with a stall of
the memory, goes to slot 0, the next one to slot 1. -/
def twoFrames (t : Nat) : In Nat :=
  { valid := 2 ≤ t, sof := t ≤ 3 || (8 ≤ t && t ≤ 12), pixels := 2 * t, busReady := t % 4 != 0
    wdataValid := t % 2 == 1, frame_size := 12
    sw := fun n => if t = 0 ∧ n < 2 then ⟨some 1, some (400 * (n + 1))⟩ else ⟨none, none⟩ }

theorem twoFrames_owned : Owned 2 10 2 twoFrames := by
  intro t n hv
  by_cases ht : t = 0
  · subst ht
    exact absurd hv (by simp [dma, trace, reset, Slot.valid])
  · have : ¬ (t = 0 ∧ n < 2) := fun h => ht h.1
    simp [twoFrames, this]

example : Begins 2 10 2 twoFrames 2 ∧ addressDone (dma 2 10 2 twoFrames 8) (twoFrames 8) = true ∧
    writesIn 2 10 2 twoFrames 3 6 = [(100, 6), (101, 10), (102, 12)] ∧
    (dma 2 10 2 twoFrames 9).slots 0 = ⟨2, 103 * 4⟩ ∧
    LowestLoaded 2 (dma 2 10 2 twoFrames 9) 1 ∧
    (dma 2 10 2 twoFrames 10).current_slot = 1 ∧ Begins 2 10 2 twoFrames 10 := by
  unfold Begins LowestLoaded
  decide

/-- Hypothesis of `C72_drained`: after both frames no slot is LOADED. -/
example : (∀ n, n < 2 → ((dma 2 10 2 twoFrames 20).slots n).valid = false) ∧
    (twoFrames 20).valid = true ∧
    ((dma 2 10 2 twoFrames 8).slots 0).valid = true ∧
    ((dma 2 10 2 twoFrames 9).slots 0).valid = false := by
  decide +kernel

example : 100 + 3 ≤ 2 ^ 10 ∧ block 10 100 [6, 10, 12] = [(100, 6), (101, 10), (102, 12)] := by decide

/-- A stream that holds its word while the DMA does not take it (`C16_first_word`). -/
example : Held 2 10 0 shortFrames ∧ Begins 2 10 0 shortFrames 1 ∧
    writesIn 2 10 0 shortFrames 2 3 = [(0, 0), (1, 0)] := by
  refine ⟨fun t _ _ => ⟨rfl, rfl, rfl⟩, ?_, ?_⟩
  · unfold Begins; decide
  · decide

end Verif.Props
