import Verif.Proofs.LockLoss
import Verif.Props.GrayFifo

/-!
# C101: loss of the input clock
-/

namespace Verif.Props

open Verif.GrayFifo Verif.Capture Verif.Spec.Stream Verif.Spec.CaptureCdc

/-- **C101**, full statement: whatever the input clock does, the words that the DMA writes to memory are
words that have been captured, in their order, each at most once.  (Words may be missing.) -/
def C101_statement : Prop :=
  ∀ (pf n nslots aw al : Nat) (z : Word 32) (x : Nat → CaptureCdc.In n 32) (t : Nat), 2 ≤ pf → 1 ≤ n →
    ((Spec.CaptureCdc.memWrites (rgb pf) nslots aw al (GrayFifo.reset n z) x 0 t).map (·.2)).Sublist
      ((captured (rgb pf) nslots aw al (GrayFifo.reset n z) x 0 t).map (·.2))

/-- Slot 0 is loaded, a frame begins and one word of it is captured and written to memory; then the input
clock is lost and the pixel clock domain is reset.  Nothing is captured afterwards. -/
def lostRun (t : Nat) : CaptureCdc.In 1 32 :=
  { pixEdge := true, pixRst := 12 ≤ t && t < 15
    video := ⟨true, t == 2, t == 3 || t == 4, 1, 2, 3⟩
    sysEdge := true, busReady := true, wdataValid := false, frame_size := 32
    sw := fun k => if t == 0 && k == 0 then ⟨some 1, some 64⟩ else ⟨none, none⟩
    rOld := 0, wOld := 0, clash := (false, []) }

/-- **C101** In that run one word is captured, but four are written to memory: after the reset of the
write counter the read side takes the whole content of the FIFO's memory for new, up to the point where
the transfer is complete. -/
theorem C101_lost :
    captured (rgb 2) 2 10 3 (GrayFifo.reset 1 (false, [9, 9])) lostRun 0 24 =
      [(true, [0x010203#32, 0x010203#32])] ∧
    Spec.CaptureCdc.memWrites (rgb 2) 2 10 3 (GrayFifo.reset 1 (false, [9, 9])) lostRun 0 24 =
      [(8, [0x010203#32, 0x010203#32]), (9, [9, 9]), (10, [0x010203#32, 0x010203#32]), (11, [9, 9])] ∧
    ((circuit (rgb 2) 2 10 3 (GrayFifo.reset 1 (false, [9, 9])) lostRun 24).dma.slots 0).pending = true := by
  decide +kernel

/-- **C101** does not hold. -/
theorem C101_violated : ¬ C101_statement := by
  intro h
  have := (h 2 1 2 10 3 (false, [9, 9]) lostRun 24 (by decide) (by decide)).length_le
  rw [C101_lost.1, C101_lost.2.1] at this
  exact absurd this (by decide)

/-- **C101** How much of it there is, for any depth: after the reset the read side takes exactly as many
stale words as its counter is from wrapping around, i.e. up to `2 ^ (n + 1) - 1`, almost twice the depth. -/
theorem C101_stale {α : Type} (n : Nat) (s0 : GrayFifo.State n α) (hp : s0.produce = 0)
    (hs : s0.produce_r = ⟨gray 0, gray 0⟩) (x : Nat → GrayFifo.In n α)
    (hwrite : ∀ t, (x t).writeEdge = true → (x t).we = false)
    (hread : ∀ t, (x t).readEdge = true ∧ (x t).re = true) (t : Nat) :
    given s0 x t = [] ∧ (taken s0 x t).length = min t ((2 ^ (n + 1) - s0.consume.toNat) % 2 ^ (n + 1)) := by
  have hquiet : ∀ T, Quiet s0 x T := by
    intro T t
    induction t with
    | zero =>
      intro _
      show produceNext s0 (x 0) = _
      unfold produceNext
      cases he : (x 0).writeEdge
      · rfl
      · rw [hwrite 0 he, hp]; cases (x 0).writeRst <;> rfl
    | succ t ih =>
      intro ht
      have hpt : (fifo s0 x (t + 1)).produce = s0.produce := ih (by omega)
      unfold produceNext
      rw [hpt]
      cases he : (x (t + 1)).writeEdge
      · rfl
      · rw [hwrite _ he, hp]; cases (x (t + 1)).writeRst <;> rfl
  have hsync : ∀ t, (fifo s0 x t).produce_r = ⟨gray s0.produce, gray s0.produce⟩ := by
    intro t
    induction t with
    | zero => rw [hp]; exact hs
    | succ t ih =>
      show Status.Multi.step _ _ (gray (fifo s0 x t).produce) (gray (produceNext (fifo s0 x t) (x t))) _ = _
      rw [hquiet (t + 1) t (by omega), quiet_produce (hquiet (t + 1)) (by omega : t ≤ t + 1),
        Status.Multi.step, sample_same, ih]
      split <;> rfl
  have hlen : ∀ t, (taken s0 x t).length = min t (behind s0 x 0) ∧
      behind s0 x t = behind s0 x 0 - t := by
    intro t
    induction t with
    | zero => exact ⟨(Nat.min_eq_left (Nat.zero_le _)).symm, rfl⟩
    | succ t ih =>
      have hst : (fifo s0 x t).produce_r.status = gray s0.produce := by rw [hsync t]
      have hb := behind_succ (x := x) hst
      have hl : leaves s0 x t = decide (behind s0 x t ≠ 0) := by
        rw [leaves, (hread t).1, (hread t).2, behind_readable hst]; rfl
      have htk : (taken s0 x (t + 1)).length = (taken s0 x t).length + (if leaves s0 x t then 1 else 0) := by
        show (transferred _ _ t ++ _).length = _
        rw [List.length_append]
        show (taken s0 x t).length + _ = _
        cases leaves s0 x t <;> rfl
      rw [htk]
      rw [hl] at hb ⊢
      by_cases h0 : behind s0 x t = 0
      · simp [h0] at hb ⊢; omega
      · simp [h0] at hb ⊢; omega
  refine ⟨?_, ?_⟩
  · induction t with
    | zero => rfl
    | succ t ih =>
      show given s0 x t ++ (if enters s0 x t then _ else _) = []
      rw [ih, if_neg]
      · rfl
      · rw [enters]
        cases he : (x t).writeEdge
        · simp
        · rw [hwrite t he]; simp
  · rw [(hlen t).1]
    congr 1
    show (s0.produce - s0.consume).toNat = _
    rw [hp, BitVec.toNat_sub]
    simp

/-! ## What holds -/

/-- **C101** (part) Without a reset: the words that leave the FIFO are the first of those that entered. -/
theorem C101_no_reset_partial {α : Type} (n : Nat) (hn : 1 ≤ n) (s0 : GrayFifo.State n α)
    (h0 : Settled s0) (x : Nat → GrayFifo.In n α) (hr : ∀ t, (x t).writeRst = false) (t : Nat) :
    taken s0 x t <+: given s0 x t := by
  rw [conserve hn h0 hr t]
  exact List.prefix_append _ _

/-- **C101** (part) The FIFO recovers: from any state, in particular after a reset of the write side, if
no word is offered and the read side takes whatever it sees for `2 ^ (n + 1) + 2` read clocks, and then
there are two write clocks, the FIFO is empty and both sides know it. -/
theorem C101_recovers_partial {α : Type} (n : Nat) (s0 : GrayFifo.State n α) (x : Nat → GrayFifo.In n α)
    (A T : Nat) (hA : A ≤ T)
    (hquiet : ∀ t, t < T → (x t).writeEdge = true → (x t).we = false ∧ (x t).writeRst = false)
    (hre : ∀ t, t < T → (x t).readEdge = true → (x t).re = true)
    (hread : 2 + 2 ^ (n + 1) ≤ countIn (fun u => (x u).readEdge) 0 A)
    (hwrite : 2 ≤ countIn (fun u => (x u).writeEdge) A (T - A)) :
    Settled (fifo s0 x T) := by
  have hpos := Nat.two_pow_pos (n + 1)
  have hq : Quiet s0 x T := quiet_of hquiet
  have h2 : 2 ≤ countIn (fun u => (x u).readEdge) 0 A := by omega
  have h0 : behind s0 x A = 0 := by
    rcases quiet_drains hq hre A hA _ hread with h | h <;> omega
  have hm : 2 ≤ countIn (fun u => (x u).readEdge) 0 T := by rw [count_from _ hA]; omega
  have hs := quiet_synced hq T (Nat.le_refl _)
  have hw := quiet_settled hq h2 h0 T hA (Nat.le_refl _)
  have e1 := hs.1 (by omega)
  have e2 := hs.2 hm
  have e3 := hw.1 (by omega)
  have e4 := hw.2 hwrite
  have e5 := quiet_empty hq h2 h0 T hA (Nat.le_refl _)
  have e6 := quiet_produce hq (Nat.le_refl T)
  refine ⟨by rw [e5, e6], ?_, ?_⟩
  · rw [e6]
    show Status.Multi.mk (fifo s0 x T).produce_r.s0 (fifo s0 x T).produce_r.status = _
    rw [e1, e2]
  · rw [e6]
    show Status.Multi.mk (fifo s0 x T).consume_w.s0 (fifo s0 x T).consume_w.status = _
    rw [e3, e4]

/-- **C101** (part) From an instant on at which the FIFO is empty and both sides know it, and as long as
the pixel clock domain is not reset: the words that the DMA writes are words captured since, in their
order, each at most once. -/
theorem C101_written_partial {σ : Type} {w : Nat} (E : Extractor σ w) (n nslots aw al : Nat) (hn : 1 ≤ n)
    (f0 : GrayFifo.State n (Word w)) (x : Nat → CaptureCdc.In n w) (T : Nat)
    (h0 : Settled (circuit E nslots aw al f0 x T).fifo) (hr : ∀ t, T ≤ t → (x t).pixRst = false)
    (m : Nat) :
    ((Spec.CaptureCdc.memWrites E nslots aw al f0 x T m).map (·.2)).Sublist
      ((captured E nslots aw al f0 x T m).map (·.2)) := by
  have hf : ∀ m, (circuit E nslots aw al f0 x (T + m)).fifo =
      fifo (circuit E nslots aw al f0 x T).fifo (fun k => CaptureCdc.fifoAt E nslots aw al f0 x (T + k)) m := by
    intro m
    rw [CaptureCdc.fifo_eq, CaptureCdc.fifo_eq]
    exact trace_add _ _ _ _ _
  have hcons := conserve (x := fun k => CaptureCdc.fifoAt E nslots aw al f0 x (T + k)) hn h0
    (fun t => hr (T + t) (by omega)) m
  have hg : captured E nslots aw al f0 x T m = given (circuit E nslots aw al f0 x T).fifo
      (fun k => CaptureCdc.fifoAt E nslots aw al f0 x (T + k)) m := by
    clear hcons
    unfold captured given
    induction m with
    | zero => rfl
    | succ m ih =>
      simp only [Spec.Frame.pickIn, transferred]
      rw [ih]
      unfold enters
      rw [hf m]
      rfl
  have ht : ((Spec.CaptureCdc.memWrites E nslots aw al f0 x T m).map (·.2)).Sublist
      ((taken (circuit E nslots aw al f0 x T).fifo
        (fun k => CaptureCdc.fifoAt E nslots aw al f0 x (T + k)) m).map (·.2)) := by
    clear hcons hg
    unfold Spec.CaptureCdc.memWrites taken
    induction m with
    | zero => exact List.Sublist.refl _
    | succ m ih =>
      simp only [Spec.Frame.pickIn, transferred, List.map_append]
      refine ih.append ?_
      by_cases hw : ((x (T + m)).sysEdge && Dma.writes (circuit E nslots aw al f0 x (T + m)).dma
          (CaptureCdc.dmaIn (circuit E nslots aw al f0 x (T + m)) (x (T + m)))) = true
      · rw [if_pos hw]
        rw [Bool.and_eq_true] at hw
        obtain ⟨h1, h2⟩ := hw
        simp only [Dma.writes, Dma.busValid, Bool.and_eq_true, decide_eq_true_eq] at h2
        obtain ⟨⟨h3, h4⟩, h5⟩ := h2
        have h4 : readable (circuit E nslots aw al f0 x (T + m)).fifo = true := h4
        have hl : leaves (circuit E nslots aw al f0 x T).fifo
            (fun k => CaptureCdc.fifoAt E nslots aw al f0 x (T + k)) m = true := by
          unfold leaves
          rw [← hf m, h4]
          show ((x (T + m)).sysEdge && Dma.frameReady _ _ && true) = true
          rw [h1, Dma.frameReady, h3]
          simpa using h5
        rw [if_pos hl, ← hf m]
        exact List.Sublist.refl _
      · rw [if_neg hw]
        exact List.nil_sublist _
  rw [hg, hcons, List.map_append]
  exact ht.trans (List.sublist_append_left _ _)

/-- **C101** (part) If no slot is loaded while the input clock is away and until the FIFO has drained, the
property holds from then on: the DMA discards everything stale. -/
theorem C101_discards_partial {σ : Type} {w : Nat} (E : Extractor σ w) (n nslots aw al : Nat) (hn : 1 ≤ n)
    (f0 : GrayFifo.State n (Word w)) (x : Nat → CaptureCdc.In n w) (S A T : Nat) (hS : S ≤ A) (hA : A ≤ T)
    (hr : ∀ t, S ≤ t → (x t).pixRst = false)
    (hquiet : ∀ t, S ≤ t → t < T → offers E (circuit E nslots aw al f0 x t).frame = false)
    (hidle : ∀ t, S ≤ t → t < T → (circuit E nslots aw al f0 x t).dma.fsm = .waitSof ∧
      Dma.addressValid (circuit E nslots aw al f0 x t).dma = false)
    (hread : 2 + 2 ^ (n + 1) ≤ countIn (fun u => (x u).sysEdge) S (A - S))
    (hwrite : 2 ≤ countIn (fun u => (x u).pixEdge) A (T - A)) (m : Nat) :
    Spec.CaptureCdc.memWrites E nslots aw al f0 x S (T - S) = [] ∧
    ((Spec.CaptureCdc.memWrites E nslots aw al f0 x T m).map (·.2)).Sublist
      ((captured E nslots aw al f0 x T m).map (·.2)) := by
  have hshift : ∀ (p : Nat → Bool) (a b : Nat), countIn p (S + a) b = countIn (fun u => p (S + u)) a b := by
    intro p a b
    induction b with
    | zero => rfl
    | succ b ih => rw [countIn, countIn, ih, Nat.add_assoc]
  constructor
  · unfold Spec.CaptureCdc.memWrites
    have : ∀ k, S + k ≤ T → Spec.Frame.pickIn (fun u => (x u).sysEdge &&
        Dma.writes (circuit E nslots aw al f0 x u).dma
          (CaptureCdc.dmaIn (circuit E nslots aw al f0 x u) (x u)))
        (fun u => Dma.busWord (circuit E nslots aw al f0 x u).dma
          (CaptureCdc.dmaIn (circuit E nslots aw al f0 x u) (x u))) S k = [] := by
      intro k
      induction k with
      | zero => intro _; rfl
      | succ k ih =>
        intro hk
        rw [Spec.Frame.pickIn, ih (by omega), if_neg]
        · rfl
        · rw [Dma.writes, Dma.busValid, (hidle (S + k) (by omega) (by omega)).1]
          simp
    exact this (T - S) (by omega)
  · refine C101_written_partial E n nslots aw al hn f0 x T ?_ (fun t ht => hr t (by omega)) m
    have hf : (circuit E nslots aw al f0 x (S + (T - S))).fifo =
        fifo (circuit E nslots aw al f0 x S).fifo
          (fun k => CaptureCdc.fifoAt E nslots aw al f0 x (S + k)) (T - S) := by
      rw [CaptureCdc.fifo_eq, CaptureCdc.fifo_eq]
      exact trace_add _ _ _ _ _
    rw [show S + (T - S) = T by omega] at hf
    rw [hf]
    refine C101_recovers_partial n _ _ (A - S) (T - S) (by omega) ?_ ?_ ?_ ?_
    · intro t ht _
      exact ⟨hquiet (S + t) (by omega) (by omega), hr (S + t) (by omega)⟩
    · intro t ht _
      show Dma.frameReady (circuit E nslots aw al f0 x (S + t)).dma _ = true
      obtain ⟨h1, h2⟩ := hidle (S + t) (by omega) (by omega)
      rw [Dma.frameReady, h1, h2]
      rfl
    · have := hshift (fun u => (x u).sysEdge) 0 (A - S)
      rw [Nat.add_zero] at this
      rw [this] at hread
      exact hread
    · have := hshift (fun u => (x u).pixEdge) (A - S) (T - S - (A - S))
      rw [show S + (A - S) = A by omega, show T - S - (A - S) = T - A by omega] at this
      rw [this] at hwrite
      rw [show T - S - (A - S) = T - A by omega]
      exact hwrite

/-! ## Examples -/

/-- A word is pushed and popped, then the write side is reset; from instant 9 on nothing is written and
everything is read. -/
def staleRun (t : Nat) : GrayFifo.In 1 Nat :=
  { writeEdge := true, we := t == 0, din := 5, writeRst := t == 6, readEdge := true, re := t == 4 || 9 ≤ t
    rOld := 0, wOld := 0, clash := 0 }

/-- Of a FIFO of depth 2 the read side then takes three stale words. -/
example :
    let s := fifo (GrayFifo.reset 1 0) staleRun 9
    s.produce = 0 ∧ s.produce_r = ⟨gray 0, gray 0⟩ ∧ s.consume = 1 ∧
    (∀ t, (staleRun (9 + t)).writeEdge = true → (staleRun (9 + t)).we = false) ∧
    (∀ t, (staleRun (9 + t)).readEdge = true ∧ (staleRun (9 + t)).re = true) ∧
    taken s (fun k => staleRun (9 + k)) 7 = [0, 5, 0] ∧
    given (GrayFifo.reset 1 0) staleRun 9 = [5] ∧ taken (GrayFifo.reset 1 0) staleRun 9 = [5] := by
  refine ⟨by decide +kernel, by decide +kernel, by decide +kernel, fun t _ => ?_, fun t => ⟨rfl, ?_⟩,
    by decide +kernel, by decide +kernel, by decide +kernel⟩
  · simp only [staleRun, beq_eq_false_iff_ne, ne_eq]; omega
  · simp [staleRun]

/-- The hypotheses of `C101_no_reset_partial` are those of `C100_queue`; here words do pass. -/
example : Settled (GrayFifo.reset 2 0) ∧ (∀ t, (crossingRun t).writeRst = false) ∧
    taken (GrayFifo.reset 2 0) crossingRun 13 = [10, 11] :=
  ⟨⟨rfl, by decide, by decide⟩, fun _ => rfl, by decide +kernel⟩

/-- The FIFO of `staleRun` has recovered at instant 17. -/
example : Settled (fifo (fifo (GrayFifo.reset 1 0) staleRun 9) (fun k => staleRun (9 + k)) 8) := by
  refine C101_recovers_partial 1 _ _ 6 8 (by decide) (fun t _ _ => ⟨?_, ?_⟩) (fun t _ _ => ?_)
    (by decide) (by decide)
  · simp only [staleRun, beq_eq_false_iff_ne, ne_eq]; omega
  · simp only [staleRun, beq_eq_false_iff_ne, ne_eq]; omega
  · simp [staleRun]

/-- The clock is lost at instant 12 and back at instant 15; software has cleared its slots before and
loads slot 0 again at instant 24, and then a frame is captured. -/
def carefulRun (t : Nat) : CaptureCdc.In 1 32 :=
  { pixEdge := true, pixRst := 12 ≤ t && t < 15
    video := ⟨true, t == 2 || t == 28, t == 3 || t == 4 || (29 ≤ t && t < 33), 1, 2, BitVec.ofNat 8 t⟩
    sysEdge := true, busReady := true, wdataValid := false, frame_size := 16
    sw := fun k => if t == 24 && k == 0 then ⟨some 1, some 64⟩ else ⟨none, none⟩
    rOld := 0, wOld := 0, clash := (false, []) }

example : (∀ t, 15 ≤ t → (carefulRun t).pixRst = false) ∧
    (∀ t, 15 ≤ t → t < 23 → offers (rgb 2)
      (circuit (rgb 2) 2 10 3 (GrayFifo.reset 1 (false, [9, 9])) carefulRun t).frame = false) ∧
    (∀ t, 15 ≤ t → t < 23 →
      (circuit (rgb 2) 2 10 3 (GrayFifo.reset 1 (false, [9, 9])) carefulRun t).dma.fsm = .waitSof ∧
      Dma.addressValid (circuit (rgb 2) 2 10 3 (GrayFifo.reset 1 (false, [9, 9])) carefulRun t).dma = false) ∧
    2 + 2 ^ 2 ≤ countIn (fun u => (carefulRun u).sysEdge) 15 (21 - 15) ∧
    2 ≤ countIn (fun u => (carefulRun u).pixEdge) 21 (23 - 21) ∧
    ¬ Settled (circuit (rgb 2) 2 10 3 (GrayFifo.reset 1 (false, [9, 9])) carefulRun 15).fifo ∧
    Spec.CaptureCdc.memWrites (rgb 2) 2 10 3 (GrayFifo.reset 1 (false, [9, 9])) carefulRun 23 17 =
      [(8, [0x01021e#32, 0x01021d#32]), (9, [0x010220#32, 0x01021f#32])] := by
  refine ⟨fun t ht => ?_, ?_, ?_, by decide, by decide, ?_, by decide +kernel⟩
  · simp only [carefulRun, Bool.and_eq_false_iff, decide_eq_false_iff_not]; omega
  · intro t h1 h2
    have : ∀ t, t < 23 → 15 ≤ t → offers (rgb 2)
      (circuit (rgb 2) 2 10 3 (GrayFifo.reset 1 (false, [9, 9])) carefulRun t).frame = false := by
      decide +kernel
    exact this t h2 h1
  · intro t h1 h2
    have : ∀ t, t < 23 → 15 ≤ t →
      (circuit (rgb 2) 2 10 3 (GrayFifo.reset 1 (false, [9, 9])) carefulRun t).dma.fsm = .waitSof ∧
      Dma.addressValid (circuit (rgb 2) 2 10 3 (GrayFifo.reset 1 (false, [9, 9])) carefulRun t).dma =
        false := by decide +kernel
    exact this t h2 h1
  · intro h
    exact absurd h.1 (by decide +kernel)

end Verif.Props
