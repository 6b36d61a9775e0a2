import Verif.Spec.Recover
import Verif.Spec.Rate
import Verif.Spec.Loop
import Verif.Proofs.CaptureCdc
import Verif.Proofs.Rate
import Verif.Props.LockLoss
import Verif.Props.WireToMemory

/-!
# The HDMI input after its clock has been away

A run from the instant `S` on, when the reset of the pixel clock domain is over, is a run from the start of
the input with a queue: two instants bring the slots of the DMA into the state that they have at `S`, until `T`
the queue hides nothing and refuses nothing, and from `T` on it shows the flags of the circuit.
-/

namespace Verif.Recover

open Verif.Spec.Capture Verif.Spec.Frame Verif.Spec.Stream Verif.Spec.CaptureCdc Verif.Spec.Cdc Verif.Spec
open Verif.Spec.HdmiIn (hdmiIn captureIn LoadsNoneIn)
open Verif.Capture (Extractor Word offers offered)
open Verif.GrayFifo (writable readable Settled gray enters queue)

variable {σ : Type} {n w : Nat}

/-- Two instants that bring the DMA to current slot `c` and slots `sl`, then the run from `S` on, from `T` on
with the flags `wf` and `rf`. -/
def again (y : Nat → HdmiCdc.In n w) (S T c : Nat) (sl : Nat → Dma.Slot) (wf rf : Nat → Bool) :
    Nat → HdmiIn.In
  | 0 =>
    { pixEdge := false, raw := (y S).raw, wok := true, sysEdge := true, rok := true, busReady := true
      wdataValid := false, frame_size := (y S).frame_size
      sw := fun k => if k = c then ⟨some 1, none⟩ else ⟨none, none⟩ }
  | 1 =>
    { pixEdge := false, raw := (y S).raw, wok := true, sysEdge := true, rok := true, busReady := true
      wdataValid := false, frame_size := (y S).frame_size
      sw := fun k => ⟨some (sl k).status, some (sl k).address⟩ }
  | u + 2 =>
    { pixEdge := (y (S + u)).pixEdge, raw := (y (S + u)).raw
      wok := decide (S + u < T) || wf (S + u), sysEdge := (y (S + u)).sysEdge
      rok := decide (S + u < T) || rf (S + u), busReady := (y (S + u)).busReady
      wdataValid := (y (S + u)).wdataValid, frame_size := (y (S + u)).frame_size, sw := (y (S + u)).sw }

/-! ## One instant of the circuit and of the queue -/

section Step

variable {E : Extractor σ w} {nslots aw al : Nat}

/-- What the capture path with a queue is given: the same, and the flags of the circuit. -/
def seen (c : CaptureCdc.State σ n w) (x : CaptureCdc.In n w) : Capture.In :=
  { pixEdge := x.pixEdge, video := x.video, wok := writable c.fifo, sysEdge := x.sysEdge
    rok := readable c.fifo, busReady := x.busReady, wdataValid := x.wdataValid, frame_size := x.frame_size
    sw := x.sw }

variable {c : CaptureCdc.State σ n w} {q : Capture.State σ w} {x : CaptureCdc.In n w}

/-- The two paths are in the same state, with the words `q.fifo` in the FIFO. -/
structure Same (c : CaptureCdc.State σ n w) (q : Capture.State σ w) : Prop where
  frame : c.frame = q.frame
  dma : c.dma = q.dma
  shown : readable c.fifo = (readable c.fifo && !q.fifo.isEmpty)
  head : readable c.fifo = true → q.fifo.head? = some c.fifo.dout

theorem Same.given (h : Same c q) :
    Dma.step nslots aw al c.dma (CaptureCdc.dmaIn c x) =
      Dma.step nslots aw al q.dma (Capture.dmaIn q (seen c x)) ∧
    ((CaptureCdc.dmaIn c x).valid && Dma.frameReady c.dma (CaptureCdc.dmaIn c x)) =
      ((Capture.dmaIn q (seen c x)).valid && Dma.frameReady q.dma (Capture.dmaIn q (seen c x))) ∧
    Dma.writes c.dma (CaptureCdc.dmaIn c x) = Dma.writes q.dma (Capture.dmaIn q (seen c x)) ∧
    (Dma.writes c.dma (CaptureCdc.dmaIn c x) = true →
      Dma.busWord c.dma (CaptureCdc.dmaIn c x) = Dma.busWord q.dma (Capture.dmaIn q (seen c x))) := by
  rw [← h.dma]
  refine CaptureCdc.dma_valid nslots aw al c.dma _ _ h.shown (fun hv => ?_) rfl rfl rfl rfl
  have := h.head hv
  constructor
  · show c.fifo.dout.1 = (q.fifo.head?.getD (false, [])).1
    rw [this]; rfl
  · show c.fifo.dout.2 = (q.fifo.head?.getD (false, [])).2
    rw [this]; rfl

theorem Same.step_frame (h : Same c q) (hr : x.pixRst = false) :
    (CaptureCdc.step E nslots aw al c x).frame = (Capture.step E (2 ^ n) nslots aw al q (seen c x)).frame := by
  simp only [CaptureCdc.step, Capture.step, seen, hr, h.frame]
  rfl

theorem Same.step_dma (h : Same c q) :
    (CaptureCdc.step E nslots aw al c x).dma = (Capture.step E (2 ^ n) nslots aw al q (seen c x)).dma := by
  show (if x.sysEdge then _ else _) = (if x.sysEdge then _ else _)
  rw [(h.given (x := x) (nslots := nslots) (aw := aw) (al := al)).1, h.dma]

theorem Same.step_fifo (h : Same c q) :
    (Capture.step E (2 ^ n) nslots aw al q (seen c x)).fifo = AsyncFifo.step (2 ^ n) q.fifo
      { push := x.pixEdge && offers E c.frame, data := offered E c.frame, wok := writable c.fifo
        pop := x.sysEdge && Dma.frameReady c.dma (CaptureCdc.dmaIn c x), rok := readable c.fifo } := by
  have g := (h.given (x := x) (nslots := nslots) (aw := aw) (al := al)).2.1
  have hp : (AsyncFifo.sourceValid q.fifo (Capture.fifoIn E q (seen c x)) &&
      (x.sysEdge && Dma.frameReady q.dma (Capture.dmaIn q (seen c x)))) =
      ((readable c.fifo && !q.fifo.isEmpty) && (x.sysEdge && Dma.frameReady c.dma (CaptureCdc.dmaIn c x))) := by
    have e1 : AsyncFifo.sourceValid q.fifo (Capture.fifoIn E q (seen c x)) =
      (Capture.dmaIn q (seen c x)).valid := rfl
    have e2 : (readable c.fifo && !q.fifo.isEmpty) = (CaptureCdc.dmaIn c x).valid := h.shown.symm
    rw [e1, e2, Bool.and_left_comm, ← g, Bool.and_left_comm]
  show AsyncFifo.step (2 ^ n) q.fifo (Capture.fifoIn E q (seen c x)) = _
  unfold AsyncFifo.step
  have hpop : (Capture.fifoIn E q (seen c x)).pop =
    (x.sysEdge && Dma.frameReady q.dma (Capture.dmaIn q (seen c x))) := rfl
  rw [hpop, hp]
  simp only [AsyncFifo.sourceValid, AsyncFifo.sinkReady, Capture.fifoIn, seen, h.frame]
  rfl

end Step

theorem dma_idle {α : Type} {nslots aw al : Nat} {s : Dma.State} (hf : s.fsm = .waitSof)
    (hv : ∀ k, (s.slots k).valid = false) (i j : Dma.In α) (hs : i.sw = j.sw)
    (hz : i.frame_size = j.frame_size) :
    Dma.step nslots aw al s i = Dma.step nslots aw al s j := by
  have ha : Dma.addressValid s = false := hv _
  simp only [Dma.step, Dma.addressDone, hf, ha, hs, hz]
  simp

variable {E : Extractor σ w} {nslots aw al : Nat} {f0 : GrayFifo.State n (Word w)}
  {y : Nat → HdmiCdc.In n w} {S Q A T : Nat}

local notation "run" => hdmiCdc E nslots aw al f0 y

theorem slot_lt (t : Nat) : (run t).cap.dma.current_slot < nslots ∨ (run t).cap.dma.current_slot = 0 := by
  induction t with
  | zero => exact Or.inr rfl
  | succ t ih =>
    show (if (y t).sysEdge then Dma.step nslots aw al (run t).cap.dma _ else _).current_slot < _ ∨
      (if (y t).sysEdge then Dma.step nslots aw al (run t).cap.dma _ else _).current_slot = _
    cases (y t).sysEdge
    · exact ih
    · simp only [if_true, Dma.step]
      split
      · unfold Dma.selectSlot
        cases hf : (List.range nslots).find? fun n => ((run t).cap.dma.slots n).valid with
        | none => exact ih
        | some k => exact Or.inl (List.mem_range.1 (List.mem_of_find?_eq_some hf))
      · exact ih

theorem settled_T (hr : ClockBack y S) (hd : Drains E nslots aw al f0 y S Q A T) :
    Settled (run T).cap.fifo := by
  obtain ⟨o1, o2, o3⟩ := hd.order
  let x := cdcIn E nslots aw al f0 y
  have hcap : ∀ t, (run t).cap = circuit E nslots aw al f0 x t := Props.hdmiCdc_cap
  have hf : (circuit E nslots aw al f0 x (Q + (T - Q))).fifo =
      GrayFifo.fifo (circuit E nslots aw al f0 x Q).fifo
        (fun k => CaptureCdc.fifoAt E nslots aw al f0 x (Q + k)) (T - Q) := by
    rw [CaptureCdc.fifo_eq, CaptureCdc.fifo_eq]
    exact trace_add _ _ _ _ _
  have hshift : ∀ (p : Nat → Bool) (a b : Nat), countIn p (Q + a) b = countIn (fun u => p (Q + u)) a b := by
    intro p a b
    induction b with
    | zero => rfl
    | succ b ih => rw [countIn, countIn, ih, Nat.add_assoc]
  rw [show Q + (T - Q) = T by omega] at hf
  rw [hcap, hf]
  refine Props.C101_recovers_partial n _ _ (A - Q) (T - Q) (by omega) ?_ ?_ ?_ ?_
  · intro t ht _
    refine ⟨?_, hr.over (Q + t) (by omega)⟩
    have := hd.quiet (Q + t) (by omega) (by omega)
    rw [hcap] at this
    exact this
  · intro t ht _
    show Dma.frameReady (circuit E nslots aw al f0 x (Q + t)).dma _ = true
    obtain ⟨h1, h2⟩ := hd.idle (Q + t) (by omega) (by omega)
    rw [hcap] at h1 h2
    rw [Dma.frameReady, h1, Dma.addressValid, h2]
    rfl
  · have := hshift (fun u => (y u).sysEdge) 0 (A - Q)
    rw [Nat.add_zero] at this
    have h := hd.read
    rw [this, Nat.add_comm] at h
    exact h
  · have := hshift (fun u => (y u).pixEdge) (A - Q) (T - Q - (A - Q))
    rw [show Q + (A - Q) = A by omega, show T - Q - (A - Q) = T - A by omega] at this
    have h := hd.write
    rw [this] at h
    rw [show T - Q - (A - Q) = T - A by omega]
    exact h

variable (E nslots aw al f0 y S T) in
/-- The inputs of the run from the start that is the given one from `S` on. -/
abbrev yAgain : Nat → HdmiIn.In :=
  again y S T (run S).cap.dma.current_slot (run S).cap.dma.slots (fun t => writable (run t).cap.fifo)
    (fun t => readable (run t).cap.fifo)

variable (E nslots aw al f0 y S T) in
/-- That run. -/
abbrev alt (t : Nat) : HdmiIn.State σ w := hdmiIn E (2 ^ n) nslots aw al (yAgain E nslots aw al f0 y S T) t

theorem alt_two :
    let a := alt E nslots aw al f0 y S T 2
    a.rx = Receiver.reset ∧ a.cap.frame = E.reset ∧ a.cap.fifo = [] ∧
      a.cap.dma.slots = (run S).cap.dma.slots ∧
      a.cap.dma.current_slot = (run S).cap.dma.current_slot ∧ a.cap.dma.fsm = .waitSof := by
  have f1 : (alt E nslots aw al f0 y S T 1).cap.fifo = [] := by
    show AsyncFifo.step (2 ^ n) [] _ = []
    simp [AsyncFifo.step, AsyncFifo.sourceValid, Capture.fifoIn, HdmiIn.capIn, again]
  have f2 : (alt E nslots aw al f0 y S T 2).cap.fifo = [] := by
    show AsyncFifo.step (2 ^ n) (alt E nslots aw al f0 y S T 1).cap.fifo _ = []
    rw [f1]
    simp [AsyncFifo.step, AsyncFifo.sourceValid, Capture.fifoIn, HdmiIn.capIn, again]
  have d1 : (alt E nslots aw al f0 y S T 1).cap.dma.fsm = .waitSof := by
    show (Dma.step nslots aw al Dma.reset _).fsm = _
    simp [Dma.step, Dma.reset, Dma.addressValid, Dma.Slot.valid]
  have d1c : (alt E nslots aw al f0 y S T 1).cap.dma.current_slot = 0 := by
    show (Dma.step nslots aw al Dma.reset _).current_slot = _
    have : Dma.selectSlot nslots Dma.reset = 0 := by
      unfold Dma.selectSlot
      rw [List.find?_eq_none.2 (by intro k _; simp [Dma.reset, Dma.Slot.valid])]
      rfl
    simp only [Dma.step, this]
    split <;> rfl
  have d1s : ∀ k, ((alt E nslots aw al f0 y S T 1).cap.dma.slots k).valid =
      decide (k = (run S).cap.dma.current_slot) := by
    intro k
    show Dma.Slot.valid (Dma.Slot.step al _ (if k = _ then _ else _) _ _) = _
    by_cases h : k = (run S).cap.dma.current_slot
    · rw [if_pos h]; simp [h, Dma.Slot.step, Dma.Slot.valid]
    · rw [if_neg h]; simp [h, Dma.Slot.step, Dma.Slot.valid, Capture.reset, HdmiIn.reset, Dma.reset, Dma.addressDone]
  refine ⟨rfl, rfl, f2, ?_, ?_, ?_⟩
  · funext k
    show Dma.Slot.step al _ ⟨some _, some _⟩ _ _ = _
    rfl
  · show (if !Dma.addressValid (alt E nslots aw al f0 y S T 1).cap.dma || Dma.addressDone
      (alt E nslots aw al f0 y S T 1).cap.dma _ then Dma.selectSlot nslots _ else
      (alt E nslots aw al f0 y S T 1).cap.dma.current_slot) = _
    rw [Dma.addressDone, d1, Dma.addressValid, d1s, d1c]
    by_cases h : 0 = (run S).cap.dma.current_slot
    · simp [h.symm]
    · have hlt : (run S).cap.dma.current_slot < nslots := by
        rcases slot_lt (E := E) (nslots := nslots) (aw := aw) (al := al) (f0 := f0) (y := y) S with h1 | h1 <;> omega
      simp only [h, decide_false, Bool.not_false, Bool.true_or, if_true]
      unfold Dma.selectSlot
      cases hf : (List.range nslots).find? fun k => ((alt E nslots aw al f0 y S T 1).cap.dma.slots k).valid with
      | none =>
        have := List.find?_eq_none.1 hf _ (List.mem_range.2 hlt)
        rw [d1s] at this
        simp at this
      | some k =>
        have := List.find?_some hf
        rw [d1s] at this
        simpa using this
  · have : (Capture.dmaIn (alt E nslots aw al f0 y S T 1).cap
        (HdmiIn.capIn (alt E nslots aw al f0 y S T 1).rx
          (yAgain E nslots aw al f0 y S T 1))).valid = false := by
      show (true && !(alt E nslots aw al f0 y S T 1).cap.fifo.isEmpty) = false
      rw [f1]; rfl
    show (Dma.step nslots aw al (alt E nslots aw al f0 y S T 1).cap.dma _).fsm = _
    simp only [Dma.step, d1]
    rw [this]
    simp

/-- What is reset at `S`. -/
theorem reset_S (hr : ClockBack y S) : (run S).rx = Receiver.reset ∧ (run S).cap.frame = E.reset := by
  obtain ⟨h0, h1, h2⟩ := hr.reset
  obtain ⟨R, rfl⟩ : ∃ R, S = R + 1 := ⟨S - 1, by omega⟩
  rw [Nat.add_sub_cancel] at h1 h2
  constructor
  · show (if (y R).pixEdge then if (y R).pixRst then Receiver.reset else _ else _) = _
    rw [h1, h2]; rfl
  · show (if (y R).pixEdge then if (y R).pixRst then E.reset else _ else _) = _
    rw [h1, h2]; rfl

theorem S_lt (hd : Drains E nslots aw al f0 y S Q A T) : Q < A := by
  by_contra h
  have h0 : A - Q = 0 := by omega
  have h1 := hd.read
  rw [h0] at h1
  simp [countIn] at h1

/-- Until the FIFO has drained, the two runs agree but for the FIFO. -/
theorem alt_agrees (hr : ClockBack y S) (hd : Drains E nslots aw al f0 y S Q A T) (m : Nat) (hm : S + m ≤ T) :
    let a := alt E nslots aw al f0 y S T (m + 2)
    a.rx = (run (S + m)).rx ∧ a.cap.frame = (run (S + m)).cap.frame ∧
      a.cap.dma.slots = (run (S + m)).cap.dma.slots ∧
      a.cap.dma.current_slot = (run (S + m)).cap.dma.current_slot ∧ a.cap.dma.fsm = .waitSof ∧
      (run (S + m)).cap.dma.fsm = .waitSof ∧
      (1 ≤ countIn (fun u => (y u).sysEdge) S m → a.cap.dma = (run (S + m)).cap.dma) := by
  induction m with
  | zero =>
    obtain ⟨h1, h2, -, h4, h5, h6⟩ := alt_two (E := E) (nslots := nslots) (aw := aw) (al := al) (f0 := f0)
      (y := y) (S := S) (T := T)
    obtain ⟨r1, r2⟩ := reset_S (E := E) (nslots := nslots) (aw := aw) (al := al) (f0 := f0) hr
    have hST : S < T := by
      have := hd.order
      have := S_lt hd
      omega
    exact ⟨h1.trans r1.symm, h2.trans r2.symm, h4, h5, h6, (hd.idle S (Nat.le_refl _) hST).1,
      fun h => by simp [countIn] at h⟩
  | succ m ih =>
    obtain ⟨h1, h2, h4, h5, h6, h7, h8⟩ := ih (by omega)
    have hv := (hd.idle (S + m) (by omega) (by omega)).2
    have hov := hr.over (S + m) (by omega)
    have ea : alt E nslots aw al f0 y S T (m + 1 + 2) =
      HdmiIn.step E (2 ^ n) nslots aw al (alt E nslots aw al f0 y S T (m + 2))
        (yAgain E nslots aw al f0 y S T (m + 2)) := rfl
    have er : run (S + (m + 1)) = HdmiCdc.step E nslots aw al (run (S + m)) (y (S + m)) := rfl
    revert ea er h1 h2 h4 h5 h6 h7 h8
    generalize alt E nslots aw al f0 y S T (m + 2) = a
    generalize alt E nslots aw al f0 y S T (m + 1 + 2) = a'
    intro h1 h2 h4 h5 h6 h7 h8 ea er
    subst ea
    rw [er]
    have hva : ∀ k, (a.cap.dma.slots k).valid = false := by rw [h4]; exact hv
    have av : Dma.addressValid a.cap.dma = false := hva _
    have rv : Dma.addressValid (run (S + m)).cap.dma = false := hv _
    have hsel : Dma.selectSlot nslots a.cap.dma = Dma.selectSlot nslots (run (S + m)).cap.dma := by
      unfold Dma.selectSlot; rw [h4, h5]
    simp only [HdmiCdc.step, HdmiIn.step, CaptureCdc.step, Capture.step, HdmiCdc.capIn, HdmiIn.capIn, again,
      hov]
    refine ⟨?_, ?_, ?_⟩
    · rw [h1]; simp
    · rw [h1, h2]; simp [HdmiIn.frameIn]
    by_cases he : (y (S + m)).sysEdge = true
    swap
    · rw [Bool.not_eq_true] at he
      simp only [he]
      refine ⟨h4, h5, h6, h7, fun hc => h8 ?_⟩
      rw [countIn, he] at hc
      simpa using hc
    · simp only [he]
      refine ⟨?_, ?_, ?_, ?_, fun _ => ?_⟩
      · funext k
        simp [Dma.step, Dma.addressDone, Dma.Slot.step, h6, h7, h4, CaptureCdc.dmaIn, Capture.dmaIn]
      · simp [Dma.step, av, rv, hsel]
      · simp [Dma.step, av, h6]
      · simp [Dma.step, rv, h7]
      · simp [Dma.step, Dma.addressDone, Dma.Slot.step, h6, h7, av, rv, h4, h5, hsel, CaptureCdc.dmaIn,
          Capture.dmaIn]

/-- The queue drains. -/
theorem alt_drains (hr : ClockBack y S) (hd : Drains E nslots aw al f0 y S Q A T) (m : Nat) (hm : Q + m ≤ T) :
    (alt E nslots aw al f0 y S T (Q - S + m + 2)).cap.fifo.length +
        countIn (fun u => (y u).sysEdge) Q m ≤ 2 ^ n ∨
      (alt E nslots aw al f0 y S T (Q - S + m + 2)).cap.fifo = [] := by
  have hle : ∀ t, (alt E nslots aw al f0 y S T t).cap.fifo.length ≤ 2 ^ n := by
    intro t
    induction t with
    | zero => exact Nat.zero_le _
    | succ t ih =>
      show (AsyncFifo.step (2 ^ n) (alt E nslots aw al f0 y S T t).cap.fifo _).length ≤ 2 ^ n
      revert ih
      generalize (alt E nslots aw al f0 y S T t).cap.fifo = q
      intro ih
      have ht := List.length_tail (l := q)
      simp only [AsyncFifo.step, AsyncFifo.sinkReady, Bool.and_eq_true, decide_eq_true_eq]
      split
      · next h =>
        have h := h.1.2
        split <;> simp only [List.length_append, List.length_singleton] <;> omega
      · split <;> omega
  obtain ⟨o1, o2, o3⟩ := hd.order
  induction m with
  | zero => exact Or.inl (hle _)
  | succ m ih =>
    have ih := ih (by omega)
    have hq := hd.quiet (Q + m) (by omega) (by omega)
    obtain ⟨-, a2, a3, -, a5, -, -⟩ := alt_agrees hr hd (Q - S + m) (by omega)
    have hv := (hd.idle (Q + m) (by omega) (by omega)).2
    rw [show S + (Q - S + m) = Q + m by omega] at a2 a3
    rw [← a2] at hq
    rw [← a3] at hv
    have hs : (alt E nslots aw al f0 y S T (Q - S + (m + 1) + 2)).cap.fifo =
      AsyncFifo.step (2 ^ n) (alt E nslots aw al f0 y S T (Q - S + m + 2)).cap.fifo
        (Capture.fifoIn E (alt E nslots aw al f0 y S T (Q - S + m + 2)).cap
          (HdmiIn.capIn (alt E nslots aw al f0 y S T (Q - S + m + 2)).rx
            (yAgain E nslots aw al f0 y S T (Q - S + m + 2)))) := rfl
    have hav : Dma.addressValid (alt E nslots aw al f0 y S T (Q - S + m + 2)).cap.dma = false := hv _
    have hrok : (yAgain E nslots aw al f0 y S T (Q - S + m + 2)).rok = true := by
      show (decide (S + (Q - S + m) < T) || _) = true
      rw [decide_eq_true (by omega)]; rfl
    have hsys : (yAgain E nslots aw al f0 y S T (Q - S + m + 2)).sysEdge = (y (Q + m)).sysEdge := by
      show (y (S + (Q - S + m))).sysEdge = _
      rw [show S + (Q - S + m) = Q + m by omega]
    rw [hs]
    simp only [AsyncFifo.step, AsyncFifo.sourceValid, Capture.fifoIn, HdmiIn.capIn, hq, hrok, hsys,
      Dma.frameReady, a5, hav]
    rw [countIn]
    revert ih
    generalize (alt E nslots aw al f0 y S T (Q - S + m + 2)).cap.fifo = q
    intro ih
    cases q with
    | nil => right; simp
    | cons a q =>
      rcases ih with ih | ih
      · left
        cases (y (Q + m)).sysEdge
        · simpa using ih
        · simp only [List.length_cons] at ih
          simp
          omega
      · simp at ih

theorem alt_empty (hr : ClockBack y S) (hd : Drains E nslots aw al f0 y S Q A T) :
    (alt E nslots aw al f0 y S T (T - S + 2)).cap.fifo = [] := by
  obtain ⟨o1, o2, o3⟩ := hd.order
  have h := alt_drains hr hd (T - Q) (by omega)
  rw [show Q - S + (T - Q) + 2 = T - S + 2 by omega] at h
  rcases h with h | h
  · have h1 := Verif.Capture.count_mono (fun u => (y u).sysEdge) Q (show A - Q ≤ T - Q by omega)
    have h2 := hd.read
    rw [Nat.pow_succ] at h2
    omega
  · exact h

variable (E nslots aw al f0 y T) in
/-- What the FIFO is given from `T` on. -/
abbrev after (m : Nat) : GrayFifo.In n (Word w) :=
  CaptureCdc.fifoIn E (run (T + m)).cap (HdmiCdc.capIn (run (T + m)).rx (y (T + m)))

theorem after_fifo (m : Nat) :
    (run (T + m)).cap.fifo = GrayFifo.fifo (run T).cap.fifo (after E nslots aw al f0 y T) m := by
  induction m with
  | zero => rfl
  | succ m ih =>
    show GrayFifo.step (run (T + m)).cap.fifo _ = GrayFifo.step _ _
    rw [ih]; rfl

theorem after_queue (hn : 1 ≤ n) (hr : ClockBack y S) (hd : Drains E nslots aw al f0 y S Q A T) (m : Nat) :
    writable (run (T + m)).cap.fifo = (writable (run (T + m)).cap.fifo &&
      decide ((queue (run T).cap.fifo (after E nslots aw al f0 y T) m).length < 2 ^ n)) ∧
    readable (run (T + m)).cap.fifo = (readable (run (T + m)).cap.fifo &&
      !(queue (run T).cap.fifo (after E nslots aw al f0 y T) m).isEmpty) ∧
    (readable (run (T + m)).cap.fifo = true →
      (queue (run T).cap.fifo (after E nslots aw al f0 y T) m).head? = some (run (T + m)).cap.fifo.dout) := by
  obtain ⟨o1, o2, o3⟩ := hd.order
  have h := Props.C100_queue n hn (run T).cap.fifo (settled_T hr hd) (after E nslots aw al f0 y T)
    (fun t => hr.over (T + t) (by omega)) m
  rw [← after_fifo] at h
  have e1 : (GrayFifo.queueIn (run T).cap.fifo (after E nslots aw al f0 y T) m).wok =
      writable (run (T + m)).cap.fifo := by rw [after_fifo]; rfl
  have e2 : (GrayFifo.queueIn (run T).cap.fifo (after E nslots aw al f0 y T) m).rok =
      readable (run (T + m)).cap.fifo := by rw [after_fifo]; rfl
  refine ⟨?_, ?_, h.2.2.1⟩
  · have := h.1
    rwa [AsyncFifo.sinkReady, e1] at this
  · have := h.2.1
    rwa [AsyncFifo.sourceValid, e2] at this

/-- From `T` on the two runs agree, and the queue is that of the circuit. -/
theorem alt_eq (hn : 1 ≤ n) (hr : ClockBack y S) (hd : Drains E nslots aw al f0 y S Q A T) (m : Nat) :
    let a := alt E nslots aw al f0 y S T (T - S + m + 2)
    a.rx = (run (T + m)).rx ∧ Same (run (T + m)).cap a.cap ∧
      a.cap.fifo = queue (run T).cap.fifo (after E nslots aw al f0 y T) m := by
  obtain ⟨o1, o2, o3⟩ := hd.order
  have key : ∀ m, (alt E nslots aw al f0 y S T (T - S + m + 2)).cap.fifo =
      queue (run T).cap.fifo (after E nslots aw al f0 y T) m →
      (run (T + m)).cap.frame = (alt E nslots aw al f0 y S T (T - S + m + 2)).cap.frame →
      (run (T + m)).cap.dma = (alt E nslots aw al f0 y S T (T - S + m + 2)).cap.dma →
      Same (run (T + m)).cap (alt E nslots aw al f0 y S T (T - S + m + 2)).cap := by
    intro m h1 h2 h3
    obtain ⟨-, g2, g3⟩ := after_queue hn hr hd m
    exact ⟨h2, h3, by rw [h1]; exact g2, by rw [h1]; exact g3⟩
  induction m with
  | zero =>
    obtain ⟨h1, h2, -, -, -, -, h8⟩ := alt_agrees hr hd (T - S) (by omega)
    have hc : 1 ≤ countIn (fun u => (y u).sysEdge) S (T - S) := by
      have h0 := Verif.Capture.count_mono (fun u => (y u).sysEdge) Q (show A - Q ≤ T - Q by omega)
      have h1 := GrayFifo.count_split (fun u => (y u).sysEdge) S (Q - S) (T - Q)
      rw [show Q - S + (T - Q) = T - S by omega, show S + (Q - S) = Q by omega] at h1
      have := hd.read
      have := Nat.two_pow_pos (n + 1)
      omega
    have h8 := h8 hc
    rw [show S + (T - S) = T by omega] at h1 h2 h8
    have h3 := alt_empty hr hd
    exact ⟨h1, key 0 h3 h2.symm h8.symm, h3⟩
  | succ m ih =>
    obtain ⟨i1, i2, i3⟩ := ih
    have hov := hr.over (T + m) (by omega)
    have hy : yAgain E nslots aw al f0 y S T (T - S + m + 2) =
        { pixEdge := (y (T + m)).pixEdge, raw := (y (T + m)).raw
          wok := writable (run (T + m)).cap.fifo, sysEdge := (y (T + m)).sysEdge
          rok := readable (run (T + m)).cap.fifo, busReady := (y (T + m)).busReady
          wdataValid := (y (T + m)).wdataValid, frame_size := (y (T + m)).frame_size
          sw := (y (T + m)).sw } := by
      simp only [again, show S + (T - S + m) = T + m by omega, show ¬ (T + m < T) by omega, decide_false,
        Bool.false_or]
    have ea : alt E nslots aw al f0 y S T (T - S + (m + 1) + 2) =
      HdmiIn.step E (2 ^ n) nslots aw al (alt E nslots aw al f0 y S T (T - S + m + 2))
        (yAgain E nslots aw al f0 y S T (T - S + m + 2)) := rfl
    have er : run (T + (m + 1)) = HdmiCdc.step E nslots aw al (run (T + m)) (y (T + m)) := rfl
    have ec : (alt E nslots aw al f0 y S T (T - S + (m + 1) + 2)).cap =
        Capture.step E (2 ^ n) nslots aw al (alt E nslots aw al f0 y S T (T - S + m + 2)).cap
          (seen (run (T + m)).cap (HdmiCdc.capIn (run (T + m)).rx (y (T + m)))) := by
      rw [ea, hy]
      show Capture.step E (2 ^ n) nslots aw al _ (HdmiIn.capIn (alt E nslots aw al f0 y S T (T - S + m + 2)).rx _) = _
      rw [i1]; rfl
    have erc : (run (T + (m + 1))).cap = CaptureCdc.step E nslots aw al (run (T + m)).cap
      (HdmiCdc.capIn (run (T + m)).rx (y (T + m))) := rfl
    have hq : (alt E nslots aw al f0 y S T (T - S + (m + 1) + 2)).cap.fifo =
        queue (run T).cap.fifo (after E nslots aw al f0 y T) (m + 1) := by
      rw [ec, i2.step_fifo, i3]
      show _ = AsyncFifo.step (2 ^ n) _ (GrayFifo.queueIn _ _ m)
      unfold GrayFifo.queueIn
      rw [← after_fifo]
      rfl
    refine ⟨?_, key (m + 1) hq ?_ ?_, hq⟩
    · rw [ea, hy, er]
      simp only [HdmiIn.step, HdmiCdc.step, hov, i1]
      simp
    · rw [erc, ec, i2.step_frame (by exact hov)]
    · rw [erc, ec, i2.step_dma]

local notation "z" => cdcIn E nslots aw al f0 y

variable (E nslots aw al f0 y S T) in
/-- The inputs of its capture path. -/
abbrev zAgain : Nat → Capture.In := captureIn E (2 ^ n) nslots aw al (yAgain E nslots aw al f0 y S T)

local notation "z2" => zAgain E nslots aw al f0 y S T
local notation "cap2" => capture E (2 ^ n) nslots aw al z2

theorem cap_two (t : Nat) : (alt E nslots aw al f0 y S T t).cap = cap2 t := Props.hdmi_cap t

theorem same (hn : 1 ≤ n) (hr : ClockBack y S) (hd : Drains E nslots aw al f0 y S Q A T) {m : Nat}
    (hm : T ≤ S + m) : Same (circuit E nslots aw al f0 z (S + m)) (cap2 (m + 2)) := by
  have ho := hd.order
  have := (alt_eq hn hr hd (S + m - T)).2.1
  rwa [show T - S + (S + m - T) + 2 = m + 2 by omega, show T + (S + m - T) = S + m by omega, cap_two,
    Props.hdmiCdc_cap] at this

theorem in_eq (hn : 1 ≤ n) (hr : ClockBack y S) (hd : Drains E nslots aw al f0 y S Q A T) {m : Nat}
    (hm : T ≤ S + m) : z2 (m + 2) = seen (circuit E nslots aw al f0 z (S + m)) (z (S + m)) := by
  have ho := hd.order
  have h := (alt_eq hn hr hd (S + m - T)).1
  rw [show T - S + (S + m - T) + 2 = m + 2 by omega, show T + (S + m - T) = S + m by omega] at h
  show HdmiIn.capIn (alt E nslots aw al f0 y S T (m + 2)).rx _ = _
  rw [h, ← Props.hdmiCdc_cap]
  simp only [HdmiIn.capIn, again, seen, show ¬ (S + m < T) by omega, decide_false, Bool.false_or]
  rfl

theorem handed_eq (hn : 1 ≤ n) (hr : ClockBack y S) (hd : Drains E nslots aw al f0 y S Q A T) (m : Nat) :
    handed E (2 ^ n) nslots aw al z2 (m + 2) = circuitHanded E nslots aw al f0 z (S + m) := by
  unfold circuitHanded handed
  rcases Nat.lt_or_ge (S + m) T with h | h
  · obtain ⟨-, -, -, -, h1, h2, -⟩ := alt_agrees hr hd m (by omega)
    rw [cap_two] at h1
    rw [Props.hdmiCdc_cap] at h2
    simp [Dma.writes, Dma.busValid, h1, h2]
  · rw [((same hn hr hd h).given (x := z (S + m)) (nslots := nslots) (aw := aw) (al := al)).2.2.1,
      in_eq hn hr hd h]
    rfl

/-! ## Counting -/

theorem count_two {p p' : Nat → Bool} (h : ∀ u, p (u + 2) = p' u) (t m : Nat) :
    countIn p t m = countIn p t (min m (2 - t)) + countIn p' (t - 2) (m - (2 - t)) := by
  have shift : ∀ a b, countIn p (a + 2) b = countIn p' a b := by
    intro a b
    induction b with
    | zero => rfl
    | succ b ih => rw [countIn, countIn, ih, show a + 2 + b = a + b + 2 by omega, h]
  rcases Nat.le_total m (2 - t) with hm | hm
  · rw [Nat.min_eq_left hm, show m - (2 - t) = 0 by omega]; rfl
  · rw [Nat.min_eq_right hm]
    have := GrayFifo.count_split p t (2 - t) (m - (2 - t))
    rw [show 2 - t + (m - (2 - t)) = m by omega] at this
    rw [this]
    congr 1
    rcases Nat.le_total t 2 with h2 | h2
    · rw [show t + (2 - t) = 0 + 2 by omega, shift, show t - 2 = 0 by omega]
    · rw [show t + (2 - t) = t - 2 + 2 by omega, shift]

theorem count_none {p : Nat → Bool} {t m : Nat} (h : ∀ u, t ≤ u → u < t + m → p u = false) :
    countIn p t m = 0 := by
  induction m with
  | zero => rfl
  | succ m ih =>
    rw [countIn, ih (fun u h1 h2 => h u h1 (by omega)), h (t + m) (by omega) (by omega)]; rfl

theorem count_shift {p q : Nat → Bool} {a b m : Nat} (h : ∀ u, u < m → p (a + u) = q (b + u)) :
    countIn p a m = countIn q b m := by
  induction m with
  | zero => rfl
  | succ m ih => rw [countIn, countIn, ih (fun u hu => h u (by omega)), h m (by omega)]

theorem writes_word (hn : 1 ≤ n) (hr : ClockBack y S) (hd : Drains E nslots aw al f0 y S Q A T) (m : Nat) :
    writesWord E (2 ^ n) nslots aw al z2 (T - S + m + 2) =
      enters (run T).cap.fifo (after E nslots aw al f0 y T) m := by
  have ho := hd.order
  have hs := same hn hr hd (m := T - S + m) (by omega)
  have hi := in_eq hn hr hd (m := T - S + m) (by omega)
  have hq := (alt_eq hn hr hd m).2.2
  have g := (after_queue hn hr hd m).1
  rw [show S + (T - S + m) = T + m by omega] at hs hi
  unfold writesWord enters
  rw [← after_fifo, hi, Bool.and_comm]
  refine congrArg₂ _ ?_ ?_
  · show ((y (T + m)).pixEdge && offers E (cap2 (T - S + m + 2)).frame) =
      ((y (T + m)).pixEdge && offers E (run (T + m)).cap.frame)
    rw [← hs.frame, Props.hdmiCdc_cap]
  · show (writable (circuit E nslots aw al f0 z (T + m)).fifo && decide ((cap2 (T - S + m + 2)).fifo.length < 2 ^ n)) = _
    rw [← cap_two, hq, ← Props.hdmiCdc_cap]
    exact g.symm

theorem flag_true {t : Nat} (h : t < T - S + 2) : (z2 t).wok = true ∧ (z2 t).rok = true := by
  match t, h with
  | 0, _ => exact ⟨rfl, rfl⟩
  | 1, _ => exact ⟨rfl, rfl⟩
  | u + 2, h =>
    show (decide (S + u < T) || _) = true ∧ (decide (S + u < T) || _) = true
    rw [decide_eq_true (by omega)]
    exact ⟨rfl, rfl⟩

theorem lags (hn : 1 ≤ n) (hr : ClockBack y S) (hd : Drains E nslots aw al f0 y S Q A T) :
    LagsBy E (2 ^ n) nslots aw al z2 2 := by
  intro t ht
  have ho := hd.order
  rcases Nat.lt_or_ge t (T - S + 2) with h | h
  · rw [(flag_true h).1] at ht; exact absurd ht (by decide)
  obtain ⟨m, rfl⟩ : ∃ m, t = T - S + m + 2 := ⟨t - (T - S + 2), by omega⟩
  rw [in_eq hn hr hd (by omega), show S + (T - S + m) = T + m by omega] at ht
  have ht : writable (circuit E nslots aw al f0 z (T + m)).fifo = false := ht
  rw [← Props.hdmiCdc_cap, after_fifo] at ht
  obtain ⟨v, h1, h2, h3⟩ := Props.C100_refuses n hn _ (settled_T hr hd) (after E nslots aw al f0 y T)
    (fun t => hr.over (T + t) (by omega)) m ht
  refine ⟨T - S + v + 2, by omega, ?_, ?_⟩
  · rw [show T - S + m + 2 - (T - S + v + 2) = m - v by omega]
    rw [count_shift (q := fun u => (after E nslots aw al f0 y T u).writeEdge) (b := v)]
    · exact h2
    · intro u _
      rw [show T - S + v + 2 + u = T - S + (v + u) + 2 by omega, in_eq hn hr hd (by omega),
        show S + (T - S + (v + u)) = T + (v + u) by omega]
      rfl
  · rw [show T - S + m + 2 - (T - S + v + 2) = m - v by omega, ← cap_two, (alt_eq hn hr hd v).2.2]
    rw [count_shift (q := enters (run T).cap.fifo (after E nslots aw al f0 y T)) (b := v)]
    · exact h3
    · intro u _
      rw [show T - S + v + 2 + u = T - S + (v + u) + 2 by omega, writes_word hn hr hd]

theorem hides (hn : 1 ≤ n) (hr : ClockBack y S) (hd : Drains E nslots aw al f0 y S Q A T) :
    HidesBy E (2 ^ n) nslots aw al z2 2 := by
  intro t ht
  have ho := hd.order
  rcases Nat.lt_or_ge t (T - S + 2) with h | h
  · rw [(flag_true h).2] at ht; exact absurd ht (by decide)
  obtain ⟨m, rfl⟩ : ∃ m, t = T - S + m + 2 := ⟨t - (T - S + 2), by omega⟩
  rw [in_eq hn hr hd (by omega), show S + (T - S + m) = T + m by omega] at ht
  have ht : readable (circuit E nslots aw al f0 z (T + m)).fifo = false := ht
  rw [← Props.hdmiCdc_cap, after_fifo] at ht
  obtain ⟨v, h1, h2, h3⟩ := Props.C100_hides n hn _ (settled_T hr hd) (after E nslots aw al f0 y T)
    (fun t => hr.over (T + t) (by omega)) m ht
  refine ⟨T - S + v + 2, by omega, ?_, ?_⟩
  · rw [show T - S + m + 2 - (T - S + v + 2) = m - v by omega]
    rw [count_shift (q := fun u => (after E nslots aw al f0 y T u).readEdge) (b := v)]
    · exact h2
    · intro u _
      rw [show T - S + v + 2 + u = T - S + (v + u) + 2 by omega, in_eq hn hr hd (by omega),
        show S + (T - S + (v + u)) = T + (v + u) by omega]
      rfl
  · rw [show T - S + m + 2 - (T - S + v + 2) = m - v by omega, ← cap_two, (alt_eq hn hr hd m).2.2]
    rw [count_shift (q := enters (run T).cap.fifo (after E nslots aw al f0 y T)) (b := v)]
    · exact h3
    · intro u _
      rw [show T - S + v + 2 + u = T - S + (v + u) + 2 by omega, writes_word hn hr hd]

theorem pix_two {c : Nat} {sl : Nat → Dma.Slot} {wf rf : Nat → Bool} (m : Nat) :
    countIn (fun u => (again y S T c sl wf rf u).pixEdge) 0 (m + 2) = countIn (fun u => (y (S + u)).pixEdge) 0 m := by
  rw [count_two (p := fun u => (again y S T c sl wf rf u).pixEdge) (p' := fun u => (y (S + u)).pixEdge) (fun _ => rfl),
    count_none]
  · rw [Nat.zero_add]; congr 1
  · intro u _ h
    match u, h with
    | 0, _ => rfl
    | 1, _ => rfl
    | u + 2, h => omega

theorem fast_two {pf B W R d c : Nat} {sl : Nat → Dma.Slot} {wf rf h2 h : Nat → Bool} (hB : 1 ≤ B) (hpf : 1 ≤ pf)
    (heq : ∀ m, h2 (m + 2) = h m)
    (fast : FastEnough pf B W R d (fun u => (y (S + u)).pixEdge) (fun u => (y (S + u)).sysEdge)
      (fun u => (y (S + u)).busReady) (fun u => (y (S + u)).wdataValid) h) :
    FastEnough pf B W R d (fun u => (again y S T c sl wf rf u).pixEdge) (fun u => (again y S T c sl wf rf u).sysEdge)
      (fun u => (again y S T c sl wf rf u).busReady) (fun u => (again y S T c sl wf rf u).wdataValid) h2 := by
  have two : ∀ {P : Nat → Bool}, P 0 = false → P 1 = false → ∀ t m, countIn P t (min m (2 - t)) = 0 := by
    intro P h0 h1 t m
    refine count_none fun u hu1 hu2 => ?_
    match u, hu1, hu2 with
    | 0, _, _ => exact h0
    | 1, _, _ => exact h1
    | u + 2, a, b => omega
  have hpos : 0 < B * pf := Nat.mul_pos hB hpf
  refine ⟨fun t m hb => ?_, fun t m hs => ?_, fun t m hs => ?_⟩
  · rw [count_two (p' := fun u => (y (S + u)).pixEdge) (fun _ => rfl), two rfl rfl, Nat.zero_add] at hb
    have := fast.clocks _ _ hb
    rw [count_two (p' := fun u => (y (S + u)).sysEdge) (fun _ => rfl)]
    omega
  · rw [count_two (p' := fun u => (y (S + u)).sysEdge) (fun _ => rfl)] at hs
    have := fast.refuses (t - 2) (m - (2 - t)) (by omega)
    rw [count_two (p' := fun u => (y (S + u)).sysEdge && !(y (S + u)).busReady) (fun _ => rfl), two rfl rfl]
    omega
  · rcases Nat.lt_or_ge t 2 with ht | ht
    · match m with
      | 0 => exact Nat.zero_le _
      | m + 1 =>
        match t, ht with
        | 0, _ => exact absurd (hs 0 (by omega) (by omega) rfl).1 (by simp [again])
        | 1, _ => exact absurd (hs 1 (by omega) (by omega) rfl).1 (by simp [again])
    · rw [count_two (p' := fun u => (y (S + u)).sysEdge) (fun _ => rfl), show min m (2 - t) = 0 by omega,
        show m - (2 - t) = m by omega, countIn, Nat.zero_add]
      refine fast.drains _ _ fun u h1 h2 h3 => ?_
      have := hs (u + 2) (by omega) (by omega) h3
      exact ⟨this.1, (heq u).symm.trans this.2⟩

/-! ## Memory -/

theorem pick_append {α : Type} (p : Nat → Bool) (f : Nat → α) (t a b : Nat) :
    pickIn p f t (a + b) = pickIn p f t a ++ pickIn p f (t + a) b := by
  induction b with
  | zero => simp [pickIn]
  | succ b ih => rw [← Nat.add_assoc, pickIn, ih, pickIn, List.append_assoc, Nat.add_assoc]

theorem pick_congr {α : Type} {p q : Nat → Bool} {f g : Nat → α} {s t m : Nat}
    (h : ∀ u, u < m → p (s + u) = q (t + u) ∧ f (s + u) = g (t + u)) : pickIn p f s m = pickIn q g t m := by
  induction m with
  | zero => rfl
  | succ m ih =>
    rw [pickIn, pickIn, ih (fun u hu => h u (by omega)), (h m (by omega)).1, (h m (by omega)).2]

/-- Where something has been written last, what was there before does not matter. -/
theorem memory_last {α : Type} (l l' : List (Nat × α)) (a : Nat) (h : ∃ wr ∈ l', wr.1 = a) :
    memory (l ++ l') a = memory l' a := by
  have gen : ∀ (l' : List (Nat × α)) (m m' : Nat → Option α), ((∃ wr ∈ l', wr.1 = a) ∨ m a = m' a) →
      l'.foldl (fun m w a => if a = w.1 then some w.2 else m a) m a =
      l'.foldl (fun m w a => if a = w.1 then some w.2 else m a) m' a := by
    intro l'
    induction l' with
    | nil =>
      rintro m m' (⟨w, hw, -⟩ | h)
      · simp at hw
      · exact h
    | cons w l' ih =>
      intro m m' h
      rw [List.foldl_cons, List.foldl_cons]
      refine ih _ _ ?_
      rcases h with ⟨v, hv, rfl⟩ | h
      · rcases List.mem_cons.1 hv with rfl | hv
        · right; simp
        · left; exact ⟨v, hv, rfl⟩
      · right
        simp only [h]
  unfold memory
  rw [List.foldl_append]
  exact gen l' _ _ (Or.inl h)

/-! ## What carries over -/

variable (hn : 1 ≤ n) (hr : ClockBack y S) (hd : Drains E nslots aw al f0 y S Q A T)
include hn hr hd

theorem writes_two {a : Nat} (ha : T ≤ S + a)
    (m : Nat) : Spec.Capture.memWrites E (2 ^ n) nslots aw al z2 (a + 2) m =
      Spec.CaptureCdc.memWrites E nslots aw al f0 z (S + a) m := by
  unfold Spec.Capture.memWrites Spec.CaptureCdc.memWrites
  induction m with
  | zero => rfl
  | succ m ih =>
    simp only [pickIn]
    rw [ih]
    obtain ⟨-, -, d3, d4⟩ := (same hn hr hd (m := a + m) (by omega)).given (x := z (S + (a + m)))
      (nslots := nslots) (aw := aw) (al := al)
    rw [d3] at d4
    rw [show a + 2 + m = a + m + 2 by omega, show S + a + m = S + (a + m) by omega, in_eq hn hr hd (by omega),
      d3]
    congr 1
    show (if ((z (S + (a + m))).sysEdge && _) = true then _ else _) =
      (if ((z (S + (a + m))).sysEdge && _) = true then _ else _)
    split
    · next hc =>
      rw [Bool.and_eq_true] at hc
      rw [d4 hc.2]
    · rfl

theorem done_two {m : Nat} (hm : T ≤ S + m)
    (k : Nat) : Spec.Capture.Done E (2 ^ n) nslots aw al z2 (m + 2) k ↔ Cdc.Done E nslots aw al f0 z (S + m) k := by
  unfold Cdc.Done Spec.Capture.Done
  rw [in_eq hn hr hd hm, (same hn hr hd hm).dma]
  exact Iff.rfl

theorem rest_two {m : Nat} (hm : T ≤ S + m)
    (h : Cdc.AtRest E nslots aw al f0 z (S + m)) : Spec.Capture.AtRest E (2 ^ n) nslots aw al z2 (m + 2) := by
  have ho := hd.order
  obtain ⟨h1, h2⟩ := h
  refine ⟨?_, by rw [← (same hn hr hd hm).dma]; exact h2⟩
  have hq := (alt_eq hn hr hd (S + m - T)).2.2
  rw [show T - S + (S + m - T) + 2 = m + 2 by omega, cap_two] at hq
  rw [hq]
  obtain ⟨v0, v1, u0, u1, hI⟩ := GrayFifo.inv_all (x := after E nslots aw al f0 y T) hn (settled_T hr hd)
    (fun t => hr.over (T + t) (by omega)) (S + m - T)
  have hf := after_fifo (E := E) (nslots := nslots) (aw := aw) (al := al) (f0 := f0) (y := y) (T := T) (S + m - T)
  rw [show T + (S + m - T) = S + m by omega, Props.hdmiCdc_cap] at hf
  rw [hf, hI.produce, hI.consume] at h1
  have hlen := hI.length
  have hroom := hI.room
  have hle := hI.lle1
  have he := congrArg BitVec.toNat h1
  rw [BitVec.toNat_ofNat, BitVec.toNat_ofNat] at he
  have hp : 2 ^ (n + 1) = 2 ^ n + 2 ^ n := by rw [Nat.pow_succ]; omega
  have hpos := Nat.two_pow_pos n
  have := GrayFifo.mod_eq_cases (by omega) (by omega) he
  exact List.eq_nil_of_length_eq_zero (by omega)

theorem owns_two {m : Nat} (hm : T ≤ S + m)
    (h : Cdc.SoftwareOwns E nslots aw al f0 z (S + m)) :
    Spec.Capture.SoftwareOwns E (2 ^ n) nslots aw al z2 (m + 2) := by
  intro t k ht
  obtain ⟨u, rfl⟩ : ∃ u, t = u + 2 := ⟨t - 2, by omega⟩
  rw [in_eq hn hr hd (by omega), ← (same hn hr hd (by omega)).dma]
  exact h (S + u) k (by omega)

omit hn hr hd in
theorem loads_two {m : Nat} (h : Cdc.LoadsNone z (S + m)) :
    LoadsNoneIn (yAgain E nslots aw al f0 y S T) (m + 2) := by
  intro t k v ht
  obtain ⟨u, rfl⟩ : ∃ u, t = u + 2 := ⟨t - 2, by omega⟩
  exact h (S + u) k v (by omega)

theorem captured_two {b e k : Nat}
    (hb : T ≤ S + b) {ws : List (List Nat)}
    (h : Spec.Capture.Captured E (2 ^ n) nslots aw al z2 (b + 2) (e + 2) k ws) :
    Cdc.Captured E nslots aw al f0 z (S + b) (S + e) k ws := by
  unfold Spec.Capture.Captured at h
  unfold Cdc.Captured
  rw [← (same hn hr hd hb).dma] at h
  obtain ⟨h1, h2, h3, h4, h5⟩ := h
  have hw : Spec.Capture.memWrites E (2 ^ n) nslots aw al z2 (b + 2 + 1) (e + 2 - (b + 2)) =
      Spec.CaptureCdc.memWrites E nslots aw al f0 z (S + b + 1) (S + e - (S + b)) := by
    rw [show b + 2 + 1 = b + 1 + 2 by omega, writes_two hn hr hd (by omega),
      show e + 2 - (b + 2) = S + e - (S + b) by omega, show S + (b + 1) = S + b + 1 by omega]
  rw [hw] at h4
  refine ⟨by omega, h2, h3, h4, fun i hi => ?_⟩
  have hex : ∃ wr ∈ Spec.CaptureCdc.memWrites E nslots aw al f0 z (S + b + 1) (S + e - (S + b)),
      wr.1 = (((circuit E nslots aw al f0 z (S + b)).dma.slots k).word aw al + i) % 2 ^ aw := by
    have hmem : ((((circuit E nslots aw al f0 z (S + b)).dma.slots k).word aw al + i) % 2 ^ aw, ws[i]) ∈
        Spec.Dma.block aw (((circuit E nslots aw al f0 z (S + b)).dma.slots k).word aw al) ws :=
      List.mem_mapIdx.2 ⟨i, hi, rfl⟩
    rw [← h4] at hmem
    obtain ⟨wr, hwr, heq⟩ := List.mem_map.1 hmem
    exact ⟨wr, hwr, congrArg Prod.fst heq⟩
  have h5 := h5 i hi
  have s1 : Spec.Capture.memWrites E (2 ^ n) nslots aw al z2 0 (e + 2 + 1) =
      Spec.Capture.memWrites E (2 ^ n) nslots aw al z2 0 (b + 2 + 1) ++
      Spec.CaptureCdc.memWrites E nslots aw al f0 z (S + b + 1) (S + e - (S + b)) := by
    rw [← hw]
    have := pick_append (fun u => (z2 u).sysEdge && Dma.writes (cap2 u).dma
      (Capture.dmaIn (cap2 u) (z2 u)))
      (fun u => Dma.busWord (cap2 u).dma (Capture.dmaIn (cap2 u) (z2 u))) 0 (b + 2 + 1) (e + 2 - (b + 2))
    rw [show b + 2 + 1 + (e + 2 - (b + 2)) = e + 2 + 1 by omega, Nat.zero_add] at this
    exact this
  have s2 : Spec.CaptureCdc.memWrites E nslots aw al f0 z 0 (S + e + 1) =
      Spec.CaptureCdc.memWrites E nslots aw al f0 z 0 (S + b + 1) ++
      Spec.CaptureCdc.memWrites E nslots aw al f0 z (S + b + 1) (S + e - (S + b)) := by
    have := pick_append (fun u => (z u).sysEdge && Dma.writes (circuit E nslots aw al f0 z u).dma
      (CaptureCdc.dmaIn (circuit E nslots aw al f0 z u) (z u)))
      (fun u => Dma.busWord (circuit E nslots aw al f0 z u).dma
      (CaptureCdc.dmaIn (circuit E nslots aw al f0 z u) (z u))) 0 (S + b + 1) (S + e - (S + b))
    rw [show S + b + 1 + (S + e - (S + b)) = S + e + 1 by omega, Nat.zero_add] at this
    exact this
  rw [s1, memory_last _ _ _ hex] at h5
  rw [s2, memory_last _ _ _ hex]
  exact h5

theorem order_two {m : Nat} (hm : T ≤ S + m)
    (hno : ∀ T0 T1, NoOverflow E (2 ^ n) nslots aw al z2 T0 T1)
    {frame frame' : Nat → Nat → List (List Nat) → Prop}
    (hf : ∀ e j ws, frame (e + 2) j ws → frame' (S + e) j ws)
    (h : Spec.Capture.InOrder E (2 ^ n) nslots aw al z2 (m + 2) frame) :
    Cdc.InOrder E nslots aw al f0 z (S + m) frame' := by
  obtain ⟨F, h1, h2⟩ := h
  refine ⟨fun t => F (t - S + 2), fun e k he hdn => ?_, fun e k e' k' he hee hdn hdn' => ?_⟩
  · obtain ⟨u, rfl⟩ : ∃ u, e = S + u := ⟨e - S, by omega⟩
    obtain ⟨b, ws, g1, g2, g3⟩ := h1 (u + 2) k (by omega) (hno _ _) ((done_two hn hr hd (by omega) k).2 hdn)
    obtain ⟨v, rfl⟩ : ∃ v, b = v + 2 := ⟨b - 2, by omega⟩
    refine ⟨S + v, ws, by omega, ?_, captured_two hn hr hd (by omega) g3⟩
    simp only [Nat.add_sub_cancel_left]
    exact hf _ _ _ g2
  · obtain ⟨u, rfl⟩ : ∃ u, e = S + u := ⟨e - S, by omega⟩
    obtain ⟨v, rfl⟩ : ∃ v, e' = S + v := ⟨e' - S, by omega⟩
    simp only [Nat.add_sub_cancel_left]
    exact h2 (u + 2) k (v + 2) k' (by omega) (by omega) (hno _ _) ((done_two hn hr hd (by omega) k).2 hdn)
      ((done_two hn hr hd (by omega) k').2 hdn')

theorem refuses_two (hno : ∀ T0 T1, NoOverflow E (2 ^ n) nslots aw al z2 T0 T1) (t : Nat) (ht : Q ≤ t)
    (hp : (y t).pixEdge = true) (hof : offers E (circuit E nslots aw al f0 z t).frame = true) :
    writable (circuit E nslots aw al f0 z t).fifo = true := by
  have ho := hd.order
  obtain ⟨m, rfl⟩ : ∃ m, t = S + m := ⟨t - S, by omega⟩
  rcases Nat.lt_or_ge (S + m) T with hm | hm
  · have := hd.quiet (S + m) (by omega) hm
    rw [Props.hdmiCdc_cap] at this
    rw [this] at hof
    exact absurd hof (by simp)
  · have := hno (m + 2) (m + 3) (m + 2) (Nat.le_refl _) (by omega)
      (by rw [in_eq hn hr hd hm]; exact hp) (by rw [← (same hn hr hd hm).frame]; exact hof)
    rw [in_eq hn hr hd hm] at this
    exact this.1

end Verif.Recover
