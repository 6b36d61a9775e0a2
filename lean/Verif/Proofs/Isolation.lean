import Verif.Proofs.Dma
import Verif.Proofs.Capture

/-!
# Capture DMA under arbitrary software: lemmas
-/

namespace Verif.Dma

open Verif.Spec.Dma Verif.Spec.Frame Verif.Spec.Stream Verif.Frame

variable {α : Type} {nslots aw al : Nat} {x : Nat → In α}

/-- The registers of the FSM at the next clock. -/
theorem fsm_succ (u : Nat) : (dma nslots aw al x (u + 1)).fsm = (match (dma nslots aw al x u).fsm with
    | .waitSof => if addressValid (dma nslots aw al x u) && (x u).sof && (x u).valid then
        Fsm.transferPixels else .waitSof
    | .transferPixels => if fire x u && decide ((dma nslots aw al x u).mwords_remaining = 1) then .eof
        else .transferPixels
    | .eof => if (x u).wdataValid then Fsm.eof else .waitSof) := rfl

/-- The address and word counters `n` clocks after a transfer began, whatever software does. -/
theorem transfer_any {t : Nat} (hb : Begins nslots aw al x t) (n : Nat)
    (hc : countIn (fire x) (t + 1) n < wordsOf aw al (x t).frame_size) :
    let s := dma nslots aw al x t
    let s' := dma nslots aw al x (t + 1 + n)
    s'.fsm = .transferPixels ∧
    s'.current_address = ((s.slots s.current_slot).word aw al + countIn (fire x) (t + 1) n) % 2 ^ aw ∧
    s'.mwords_remaining = wordsOf aw al (x t).frame_size - countIn (fire x) (t + 1) n := by
  intro s s'
  obtain ⟨h1, h2, h3, h4⟩ := hb
  have hlt := wordsOf_lt aw al (x t).frame_size
  induction n with
  | zero =>
    refine ⟨?_, ?_, ?_⟩
    · show (dma nslots aw al x (t + 1)).fsm = _
      rw [fsm_succ, h1, h2, h3, h4]; rfl
    · show (if s.fsm = .waitSof then (s.slots s.current_slot).word aw al else _) = _
      rw [if_pos h1]
      show _ = (_ + 0) % 2 ^ aw
      rw [Nat.add_zero]
      exact (Nat.mod_eq_of_lt (wordsOf_lt aw al _)).symm
    · show (if s.fsm = .waitSof then wordsOf aw al (x t).frame_size else _) = _
      rw [if_pos h1]; rfl
  | succ n ih =>
    have hc' : countIn (fire x) (t + 1) n < wordsOf aw al (x t).frame_size := by
      rw [countIn] at hc; omega
    obtain ⟨i1, i2, i3⟩ := ih hc'
    set r := dma nslots aw al x (t + 1 + n) with hr
    have hw : writes r (x (t + 1 + n)) = fire x (t + 1 + n) := by
      simp [writes, busValid, fire, i1]
    have hcs : countIn (fire x) (t + 1) (n + 1) = countIn (fire x) (t + 1) n +
      (if fire x (t + 1 + n) then 1 else 0) := rfl
    refine ⟨?_, ?_, ?_⟩
    · show (dma nslots aw al x (t + 1 + n + 1)).fsm = _
      rw [fsm_succ, ← hr, i1]
      show (if fire x (t + 1 + n) && decide (r.mwords_remaining = 1) then Fsm.eof
        else .transferPixels) = _
      rw [if_neg]
      intro h
      simp only [Bool.and_eq_true, decide_eq_true_eq] at h
      rw [hcs, if_pos h.1] at hc
      rw [i3] at h
      omega
    · show (if r.fsm = .waitSof then _ else if writes r (x (t + 1 + n)) then
        (r.current_address + 1) % 2 ^ aw else r.current_address) = _
      rw [if_neg (by rw [i1]; decide), hw, hcs]
      by_cases hf : fire x (t + 1 + n) = true
      · rw [if_pos hf, if_pos hf, i2]
        simp [Nat.add_assoc]
      · rw [if_neg hf, if_neg hf, i2]; rfl
    · show (if r.fsm = .waitSof then _ else if writes r (x (t + 1 + n)) then
        (r.mwords_remaining + 2 ^ aw - 1) % 2 ^ aw else r.mwords_remaining) = _
      rw [if_neg (by rw [i1]; decide), hw, hcs]
      by_cases hf : fire x (t + 1 + n) = true
      · rw [if_pos hf, if_pos hf, i3]
        rw [show wordsOf aw al (x t).frame_size - countIn (fire x) (t + 1) n + 2 ^ aw - 1 =
          (wordsOf aw al (x t).frame_size - countIn (fire x) (t + 1) n - 1) + 2 ^ aw by omega,
          Nat.add_mod_right, Nat.mod_eq_of_lt (by omega)]
        omega
      · rw [if_neg hf, if_neg hf, i3]; rfl

/-- A transfer in progress began at some clock after `t0`, if none was in progress then. -/
theorem origin_any {t0 : Nat} (idle : (dma nslots aw al x t0).fsm = .waitSof)
    (hN : ∀ t, t0 ≤ t → Begins nslots aw al x t → 1 ≤ wordsOf aw al (x t).frame_size) (d : Nat)
    (hf : (dma nslots aw al x (t0 + d)).fsm = .transferPixels) :
    ∃ t n, t0 ≤ t ∧ t0 + d = t + 1 + n ∧ Begins nslots aw al x t ∧
      countIn (fire x) (t + 1) n < wordsOf aw al (x t).frame_size := by
  induction d with
  | zero => rw [Nat.add_zero, idle] at hf; exact absurd hf (by decide)
  | succ d ih =>
    rw [← Nat.add_assoc, fsm_succ] at hf
    cases h : (dma nslots aw al x (t0 + d)).fsm with
    | waitSof =>
      rw [h] at hf
      simp only at hf
      by_cases hb : (addressValid (dma nslots aw al x (t0 + d)) && (x (t0 + d)).sof &&
          (x (t0 + d)).valid) = true
      · simp only [Bool.and_eq_true] at hb
        have hbeg : Begins nslots aw al x (t0 + d) := ⟨h, hb.1.1, hb.1.2, hb.2⟩
        have := hN _ (by omega) hbeg
        exact ⟨t0 + d, 0, by omega, by omega, hbeg, show 0 < _ by omega⟩
      · rw [if_neg hb] at hf; exact absurd hf (by decide)
    | transferPixels =>
      obtain ⟨t, n, h1, h2, h3, h4⟩ := ih h
      obtain ⟨-, -, h5⟩ := transfer_any h3 n h4
      rw [← h2] at h5
      rw [h] at hf
      simp only at hf
      refine ⟨t, n + 1, h1, by omega, h3, ?_⟩
      rw [countIn, ← h2]
      by_cases hfi : fire x (t0 + d) = true
      · rw [if_pos hfi]
        rcases Nat.lt_or_ge (countIn (fire x) (t + 1) n + 1) (wordsOf aw al (x t).frame_size) with h6 | h6
        · exact h6
        · have h7 : (dma nslots aw al x (t0 + d)).mwords_remaining = 1 := by omega
          rw [hfi, h7] at hf
          exact absurd hf (by decide)
      · rw [if_neg hfi]; exact h4
    | eof =>
      rw [h] at hf
      simp only at hf
      split at hf <;> exact absurd hf (by decide)

/-- If software leaves the slot of a transfer alone it stays the current one, until the transfer is
over. -/
theorem slot_any {t : Nat} (hb : Begins nslots aw al x t) (n : Nat)
    (off : ∀ v, t ≤ v → v ≤ t + n →
      (x v).sw (dma nslots aw al x t).current_slot = { status := none, address := none })
    (busy : ∀ v, v < n → addressDone (dma nslots aw al x (t + 1 + v)) (x (t + 1 + v)) = false) :
    (dma nslots aw al x (t + 1 + n)).current_slot = (dma nslots aw al x t).current_slot ∧
    (dma nslots aw al x (t + 1 + n)).slots (dma nslots aw al x t).current_slot =
      (dma nslots aw al x t).slots (dma nslots aw al x t).current_slot := by
  obtain ⟨h1, h2, h3, h4⟩ := hb
  have stay : ∀ v, t ≤ v → v ≤ t + n →
      (dma nslots aw al x v).current_slot = (dma nslots aw al x t).current_slot →
      (dma nslots aw al x v).slots (dma nslots aw al x t).current_slot =
        (dma nslots aw al x t).slots (dma nslots aw al x t).current_slot →
      addressDone (dma nslots aw al x v) (x v) = false →
      (dma nslots aw al x (v + 1)).current_slot = (dma nslots aw al x t).current_slot ∧
      (dma nslots aw al x (v + 1)).slots (dma nslots aw al x t).current_slot =
        (dma nslots aw al x t).slots (dma nslots aw al x t).current_slot := by
    intro v hv hvn hc hs hd
    constructor
    · show (if !addressValid (dma nslots aw al x v) || addressDone (dma nslots aw al x v) (x v) then _
        else (dma nslots aw al x v).current_slot) = _
      have : addressValid (dma nslots aw al x v) = true := by
        unfold addressValid
        rw [hc, hs]; exact h2
      rw [this, hd]; exact hc
    · show ((dma nslots aw al x v).slots _).step al ((x v).sw _) (addressDone _ _ && _) _ = _
      rw [off v hv hvn, hd]; exact hs
  induction n with
  | zero => exact stay t (Nat.le_refl _) (by omega) rfl rfl (by simp [addressDone, h1])
  | succ n ih =>
    obtain ⟨i1, i2⟩ := ih (fun v hv hvn => off v hv (by omega)) (fun v hv => busy v (by omega))
      fun v hv hvn => stay v hv (by omega)
    exact stay (t + 1 + n) (by omega) (by omega) i1 i2 (busy n (by omega))

/-- The transfer at whose end `e` the DMA is. -/
theorem eof_any {t : Nat} (hb : Begins nslots aw al x t) (hN : 1 ≤ wordsOf aw al (x t).frame_size)
    (n : Nat) (busy : ∀ v, v < n → addressDone (dma nslots aw al x (t + 1 + v)) (x (t + 1 + v)) = false) :
    let s := dma nslots aw al x t
    let s' := dma nslots aw al x (t + 1 + n)
    let a := (s.slots s.current_slot).word aw al
    let ws := takenIn nslots aw al x (t + 1) n
    writesIn nslots aw al x (t + 1) n = block aw a ws ∧
    s'.current_address = (a + ws.length) % 2 ^ aw ∧
    (s'.fsm = .transferPixels ∧ s'.mwords_remaining = wordsOf aw al (x t).frame_size - ws.length ∧
        ws.length < wordsOf aw al (x t).frame_size ∨
      s'.fsm = .eof ∧ ws.length = wordsOf aw al (x t).frame_size) := by
  intro s s' a ws
  obtain ⟨h1, h2, h3, h4⟩ := hb
  have hlt := wordsOf_lt aw al (x t).frame_size
  induction n with
  | zero =>
    obtain ⟨i1, i2, i3⟩ := transfer_any ⟨h1, h2, h3, h4⟩ 0 (show 0 < _ by omega)
    exact ⟨rfl, i2, .inl ⟨i1, i3, show 0 < _ by omega⟩⟩
  | succ n ih =>
    obtain ⟨i1, i2, i3⟩ := ih fun v hv => busy v (by omega)
    have hbn := busy n (by omega)
    set r := dma nslots aw al x (t + 1 + n) with hr
    have hws : ws = takenIn nslots aw al x (t + 1) n ++
      (if (x (t + 1 + n)).valid && frameReady r (x (t + 1 + n)) then [(x (t + 1 + n)).pixels]
        else []) := rfl
    have hwr : writesIn nslots aw al x (t + 1) (n + 1) = writesIn nslots aw al x (t + 1) n ++
      (if writes r (x (t + 1 + n)) then [busWord r (x (t + 1 + n))] else []) := rfl
    have hfs : s'.fsm = (match r.fsm with
      | .waitSof => if addressValid r && (x (t + 1 + n)).sof && (x (t + 1 + n)).valid then
          Fsm.transferPixels else .waitSof
      | .transferPixels => if fire x (t + 1 + n) && decide (r.mwords_remaining = 1) then .eof
          else .transferPixels
      | .eof => if (x (t + 1 + n)).wdataValid then Fsm.eof else .waitSof) := rfl
    have hca : s'.current_address = (if r.fsm = .waitSof then _ else if writes r (x (t + 1 + n)) then
        (r.current_address + 1) % 2 ^ aw else r.current_address) := rfl
    have hmw : s'.mwords_remaining = (if r.fsm = .waitSof then _ else if writes r (x (t + 1 + n)) then
        (r.mwords_remaining + 2 ^ aw - 1) % 2 ^ aw else r.mwords_remaining) := rfl
    rcases i3 with ⟨j1, j2, j3⟩ | ⟨j1, j2⟩
    · have hw : writes r (x (t + 1 + n)) = fire x (t + 1 + n) := by
        simp [writes, busValid, fire, j1]
      have hfr : ((x (t + 1 + n)).valid && frameReady r (x (t + 1 + n))) = fire x (t + 1 + n) := by
        simp [frameReady, fire, j1]
      rw [hw] at hwr hca hmw
      rw [hfr] at hws
      rw [if_neg (by rw [j1]; decide)] at hca hmw
      rw [j1] at hfs
      simp only at hfs
      by_cases hf : fire x (t + 1 + n) = true
      · rw [if_pos hf] at hwr hca hws hmw
        have hl : ws.length = (takenIn nslots aw al x (t + 1) n).length + 1 := by
          rw [hws, List.length_append]; rfl
        refine ⟨?_, ?_, ?_⟩
        · rw [hwr, hws, i1, block_snoc]
          show _ ++ [(r.current_address, _)] = _
          rw [i2]
        · rw [hca, hl, i2]
          simp [Nat.add_assoc, a, s]
        · rw [hf, j2, Bool.true_and] at hfs
          by_cases he : wordsOf aw al (x t).frame_size - (takenIn nslots aw al x (t + 1) n).length = 1
          · rw [he] at hfs
            exact .inr ⟨hfs, by omega⟩
          · rw [decide_eq_false he] at hfs
            refine .inl ⟨hfs, ?_, by omega⟩
            rw [hmw, j2, show wordsOf aw al (x t).frame_size -
              (takenIn nslots aw al x (t + 1) n).length + 2 ^ aw - 1 =
              (wordsOf aw al (x t).frame_size - ws.length) + 2 ^ aw by omega,
              Nat.add_mod_right, Nat.mod_eq_of_lt (by omega)]
      · rw [if_neg hf] at hwr hca hws hmw
        rw [List.append_nil] at hwr hws
        rw [Bool.not_eq_true] at hf
        rw [hf] at hfs
        rw [hwr, hws, hca, hmw]
        exact ⟨i1, i2, .inl ⟨hfs, j2, j3⟩⟩
    · have hw : writes r (x (t + 1 + n)) = false := by simp [writes, busValid, j1]
      have hfr : ((x (t + 1 + n)).valid && frameReady r (x (t + 1 + n))) = false := by
        simp [frameReady, j1]
      have hwv : (x (t + 1 + n)).wdataValid = true := by
        simp only [addressDone, j1, decide_true, Bool.true_and, Bool.not_eq_false'] at hbn
        exact hbn
      rw [hw] at hwr hca
      rw [hfr] at hws
      rw [if_neg (by rw [j1]; decide)] at hca
      rw [j1, hwv] at hfs
      have hws' : ws = takenIn nslots aw al x (t + 1) n := by rw [hws]; simp
      have hwr' : writesIn nslots aw al x (t + 1) (n + 1) = writesIn nslots aw al x (t + 1) n := by
        rw [hwr]; simp
      rw [hwr', hws', hca]
      exact ⟨i1, i2, .inr ⟨hfs, j2⟩⟩

end Verif.Dma

namespace Verif.Dma

open Verif.Spec.Dma Verif.Spec.Frame Verif.Spec.Stream Verif.Frame

variable {α : Type} {nslots aw al : Nat} {x : Nat → In α}

/-- The current slot is one of the slots. -/
theorem current_slot_lt (hn : 0 < nslots) (t : Nat) : (dma nslots aw al x t).current_slot < nslots := by
  induction t with
  | zero => exact hn
  | succ t ih =>
    show (if _ then selectSlot nslots (dma nslots aw al x t) else
      (dma nslots aw al x t).current_slot) < nslots
    split
    · unfold selectSlot
      cases h : (List.range nslots).find? fun n => ((dma nslots aw al x t).slots n).valid with
      | none => exact ih
      | some k => exact List.mem_range.1 (List.mem_of_find?_eq_some h)
    · exact ih

end Verif.Dma

namespace Verif.Capture

open Verif.Spec.Capture Verif.Spec.Frame Verif.Spec.Stream Verif.Gated

variable {σ : Type} {w : Nat} {E : Extractor σ w} {depth nslots aw al : Nat} {x : Nat → In}

local notation "cap" => capture E depth nslots aw al x
local notation "sysE" => (fun u => In.sysEdge (x u))

/-- An element of a selection was selected at some clock. -/
theorem mem_pickIn {α : Type} (p : Nat → Bool) (f : Nat → α) (t n : Nat) (a : α)
    (h : a ∈ pickIn p f t n) : ∃ u, t ≤ u ∧ u < t + n ∧ p u = true ∧ f u = a := by
  induction n with
  | zero => exact absurd h (List.not_mem_nil)
  | succ n ih =>
    rw [pickIn, List.mem_append] at h
    rcases h with h | h
    · obtain ⟨u, h1, h2, h3⟩ := ih h
      exact ⟨u, h1, by omega, h3⟩
    · by_cases hp : p (t + n) = true
      · rw [if_pos hp, List.mem_singleton] at h
        exact ⟨t + n, by omega, by omega, hp, h.symm⟩
      · rw [if_neg hp] at h; exact absurd h (List.not_mem_nil)

/-- From an instant on at which no transfer is in progress every write goes to memory that has been
lent since. -/
theorem isolated_from (hn : 0 < nslots) (T0 : Nat) (idle : (cap T0).dma.fsm = .waitSof)
    (hN : ∀ t, T0 ≤ t → (x t).sysEdge = true → 1 ≤ Dma.wordsOf aw al (x t).frame_size) (n : Nat)
    (wr : Nat × List (BitVec w)) (hwr : wr ∈ memWrites E depth nslots aw al x T0 n) :
    ∃ b, T0 ≤ b ∧ b < T0 + n ∧ Lent E depth nslots aw al x b wr.1 := by
  obtain ⟨u, hu0, hun, hp, rfl⟩ := mem_pickIn _ _ _ _ _ hwr
  rw [Bool.and_eq_true] at hp
  obtain ⟨hsu, hw⟩ := hp
  let blank : Dma.In (List (BitVec w)) :=
    { valid := false, sof := false, pixels := [], busReady := false, wdataValid := false
      frame_size := 0, sw := fun _ => { status := none, address := none } }
  obtain ⟨D, hD, hDk⟩ := exists_seq sysE (fun u => dmaIn (cap u) (x u)) blank
  have hdma := dma_at (E := E) (depth := depth) (nslots := nslots) (aw := aw) (al := al) hD
  have hge : ∀ u, (x u).sysEdge = true → ticks sysE T0 ≤ ticks sysE u → T0 ≤ u := by
    intro u hu h
    rcases Nat.lt_or_ge u T0 with hlt | hge
    · have := ticks_lt sysE hu hlt; omega
    · exact hge
  have hsz : ∀ c, ticks sysE T0 ≤ c → Spec.Dma.Begins nslots aw al D c →
      1 ≤ Dma.wordsOf aw al (D c).frame_size := by
    intro c hc hb
    rcases hDk c with h | ⟨v, hv, rfl⟩
    · have := hb.2.2.2
      rw [h] at this
      exact absurd (show false = true from this) (by decide)
    · rw [hD v hv]; exact hN v (hge v hv hc) hv
  have hτ := ticks_mono sysE hu0
  have hf : (cap u).dma.fsm = .transferPixels := by
    simp only [Dma.writes, Dma.busValid, Bool.and_eq_true, decide_eq_true_eq] at hw
    exact hw.1.1
  rw [hdma u, show ticks sysE u = ticks sysE T0 + (ticks sysE u - ticks sysE T0) by omega] at hf
  obtain ⟨t, m, h1, h2, h3, h4⟩ := Dma.origin_any (by rw [← hdma]; exact idle) hsz _ hf
  obtain ⟨-, i2, -⟩ := Dma.transfer_any h3 m h4
  rw [← h2, show ticks sysE T0 + (ticks sysE u - ticks sysE T0) = ticks sysE u by omega, ← hdma u] at i2
  obtain ⟨b, hbu, hsb, htb⟩ := tick_at sysE u t (by omega)
  have hdb := hdma b
  rw [htb] at hdb
  have hDb := hD b hsb
  rw [htb] at hDb
  refine ⟨b, hge b hsb (by omega), by omega, hsb, (cap b).dma.current_slot, ?_, ?_,
    countIn (Dma.fire D) (t + 1) m, ?_, ?_⟩
  · rw [hdb]; exact Dma.current_slot_lt hn t
  · have := h3.2.1
    unfold Dma.addressValid at this
    rwa [← hdb] at this
  · rw [hDb] at h4; exact h4
  · show (cap u).dma.current_address = _
    rw [i2, hdb]

/-- Writes elsewhere leave a memory word alone. -/
theorem memory_other {α : Type} (l l' : List (Nat × α)) (a : Nat) (h : ∀ wr ∈ l', wr.1 ≠ a) :
    memory (l ++ l') a = memory l a := by
  induction l' using List.reverseRecOn with
  | nil => rw [List.append_nil]
  | append_singleton l' v ih =>
    rw [← List.append_assoc]
    unfold memory at ih ⊢
    rw [List.foldl_append]
    show (if a = v.1 then _ else _) = _
    rw [if_neg fun hh => h v (by simp) hh.symm]
    exact ih fun wr hwr => h wr (by simp [hwr])

end Verif.Capture
