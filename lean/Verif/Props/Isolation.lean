import Verif.Proofs.Isolation
import Verif.Props.Capture

/-!
# C115 - C117: the memory software lends to the capture path
-/

namespace Verif.Props

open Verif.Spec.Frame Verif.Spec.Stream

section Memory

open Verif.Capture Verif.Spec.Capture

variable {σ : Type} {w : Nat}

/-- **C115** Whatever software does, and whatever arrives at the input: each write goes to a word that
software has lent before, in a slot that was LOADED then. -/
theorem C115_isolated (E : Extractor σ w) (depth nslots aw al : Nat) (hn : 0 < nslots) (x : Nat → In)
    (hN : ∀ t, (x t).sysEdge = true → 1 ≤ Dma.wordsOf aw al (x t).frame_size) (T : Nat)
    (wr : Nat × List (BitVec w)) (hwr : wr ∈ memWrites E depth nslots aw al x 0 T) :
    ∃ b, b < T ∧ Lent E depth nslots aw al x b wr.1 := by
  obtain ⟨b, -, h1, h2⟩ := isolated_from hn 0 rfl (fun t _ => hN t) T wr hwr
  exact ⟨b, by omega, h2⟩

/-- **C115** Memory that has never been lent is never written. -/
theorem C115_untouched (E : Extractor σ w) (depth nslots aw al : Nat) (hn : 0 < nslots) (x : Nat → In)
    (hN : ∀ t, (x t).sysEdge = true → 1 ≤ Dma.wordsOf aw al (x t).frame_size) (T a : Nat)
    (never : ∀ b, b < T → ¬ Lent E depth nslots aw al x b a) :
    memory (memWrites E depth nslots aw al x 0 T) a = none := by
  rw [← List.nil_append (memWrites E depth nslots aw al x 0 T), memory_other]
  · rfl
  · intro wr hwr h
    obtain ⟨b, hb, hl⟩ := C115_isolated E depth nslots aw al hn x hN T wr hwr
    exact never b hb (h ▸ hl)

/-- **C117** A captured picture stays in memory as long as software lends none of its words again,
whatever else it does and whatever else is captured. -/
theorem C117_kept (E : Extractor σ w) (depth nslots aw al : Nat) (hn : 0 < nslots) (x : Nat → In)
    (hN : ∀ t, (x t).sysEdge = true → 1 ≤ Dma.wordsOf aw al (x t).frame_size)
    (b e k : Nat) (ws : List (List Nat)) (hd : Done E depth nslots aw al x e k)
    (hc : Captured E depth nslots aw al x b e k ws) (T i : Nat) (hi : i < ws.length)
    (hT : e < T)
    (notLent : ∀ u, e < u → u < T → ¬ Lent E depth nslots aw al x u
      ((((capture E depth nslots aw al x b).dma.slots k).word aw al + i) % 2 ^ aw)) :
    (memory (memWrites E depth nslots aw al x 0 T)
      ((((capture E depth nslots aw al x b).dma.slots k).word aw al + i) % 2 ^ aw)).map pixels =
      ws[i]? := by
  obtain ⟨-, -, -, -, hm⟩ := hc
  have idle : (capture E depth nslots aw al x (e + 1)).dma.fsm = .waitSof := by
    obtain ⟨h1, -, h3⟩ := hd
    simp only [Dma.addressDone, Bool.and_eq_true, decide_eq_true_eq, Bool.not_eq_true'] at h3
    show (if (x e).sysEdge then Dma.step nslots aw al _ _ else _).fsm = _
    rw [if_pos h1]
    show (match (capture E depth nslots aw al x e).dma.fsm with
      | .waitSof => _ | .transferPixels => _ | .eof => if (dmaIn _ (x e)).wdataValid then _ else _) = _
    rw [h3.1]
    simp only
    rw [h3.2]
    rfl
  have hsplit : memWrites E depth nslots aw al x 0 T = memWrites E depth nslots aw al x 0 (e + 1) ++
      memWrites E depth nslots aw al x (e + 1) (T - (e + 1)) := by
    unfold memWrites
    conv => lhs; rw [show T = e + 1 + (T - (e + 1)) by omega, Frame.pickIn_add _ _ 0, Nat.zero_add]
  rw [hsplit, memory_other, hm i hi]
  intro wr hwr h
  obtain ⟨u, h1, h2, h3⟩ := isolated_from hn (e + 1) idle (fun t _ => hN t) _ wr hwr
  exact notLent u (by omega) (by omega) (h ▸ h3)

theorem fourFrame_slots : ((List.range 40).all fun u =>
    let s := (capture (rgb 2) 4 2 10 2 fourFrameRun u).dma
    (!(s.slots 0).valid || decide (13 ≤ u ∧ u ≤ 24 ∧ (s.slots 0).word 10 2 = 100)) &&
    (!(s.slots 1).valid || decide (13 ≤ u ∧ u ≤ 36 ∧ (s.slots 1).word 10 2 = 200))) = true := by
  decide +kernel

theorem fourFrame_lent {u a : Nat} (h : Lent (rgb 2) 4 2 10 2 fourFrameRun u a) (hu : u < 40) :
    13 ≤ u ∧ (u ≤ 24 ∧ (a = 100 ∨ a = 101) ∨ u ≤ 36 ∧ (a = 200 ∨ a = 201)) := by
  obtain ⟨-, k, hk, hv, i, hi, rfl⟩ := h
  have hi : i < 2 := by simpa [Dma.wordsOf, fourFrameRun, twoFrameRun] using hi
  have key := List.all_eq_true.1 fourFrame_slots u (List.mem_range.2 hu)
  simp only [Bool.and_eq_true, Bool.or_eq_true, Bool.not_eq_true', decide_eq_true_eq] at key
  obtain ⟨k0, k1⟩ := key
  have : k = 0 ∨ k = 1 := by omega
  rcases this with rfl | rfl
  · rcases k0 with h | ⟨h1, h2, h3⟩
    · rw [h] at hv; exact absurd hv (by decide)
    · rw [h3]; omega
  · rcases k1 with h | ⟨h1, h2, h3⟩
    · rw [h] at hv; exact absurd hv (by decide)
    · rw [h3]; omega

/-- Hypotheses of C115 and C117: the frame that is done at instant 24 stays while the next one is
captured in the other slot, at instant 36; the word at address 300 is never lent. -/
example : (∀ t, 1 ≤ Dma.wordsOf 10 2 (fourFrameRun t).frame_size) ∧
    Done (rgb 2) 4 2 10 2 fourFrameRun 24 0 ∧
    Captured (rgb 2) 4 2 10 2 fourFrameRun 16 24 0 [[0x01020d, 0x01020e], [0x01020f, 0x010210]] ∧
    ((capture (rgb 2) 4 2 10 2 fourFrameRun 16).dma.slots 0).word 10 2 = 100 ∧
    Lent (rgb 2) 4 2 10 2 fourFrameRun 16 101 ∧
    (∀ u, 24 < u → u < 40 → ¬ Lent (rgb 2) 4 2 10 2 fourFrameRun u 100 ∧
      ¬ Lent (rgb 2) 4 2 10 2 fourFrameRun u 101) ∧
    (∀ u, u < 40 → ¬ Lent (rgb 2) 4 2 10 2 fourFrameRun u 300) := by
  refine ⟨fun t => by simp [Dma.wordsOf, fourFrameRun, twoFrameRun], by unfold Done; decide +kernel,
    ⟨by decide, by decide +kernel, by decide +kernel, by decide +kernel, ?_⟩, by decide +kernel,
    ⟨rfl, 0, by decide, by decide +kernel, 1, by decide +kernel, by decide +kernel⟩, ?_, ?_⟩
  · intro i hi
    have : i = 0 ∨ i = 1 := by simp only [List.length_cons, List.length_nil] at hi; omega
    rcases this with rfl | rfl <;> decide +kernel
  · intro u h1 h2
    constructor <;>
    · intro h
      have := fourFrame_lent h h2
      omega
  · intro u hu h
    have := fourFrame_lent h hu
    omega

end Memory

section Withdrawal

open Verif.Dma Verif.Spec.Dma

variable {α : Type}

/-- **C116** (part 1) Software can take a slot back: every write goes to a slot that is LOADED at that
clock. -/
def C116_withdraw_statement : Prop :=
  ∀ (nslots aw al N : Nat) (x : Nat → In Nat), 0 < nslots → 1 ≤ wordsOf aw al N →
    (∀ t, (x t).frame_size = N) →
    ∀ u, writes (dma nslots aw al x u) (x u) = true →
      ∃ k, k < nslots ∧ ((dma nslots aw al x u).slots k).valid = true ∧
        ∃ i, i < wordsOf aw al N ∧ (busWord (dma nslots aw al x u) (x u)).1 =
          (((dma nslots aw al x u).slots k).word aw al + i) % 2 ^ aw

/-- **C116** (part 2) A slot is reported done only if a frame has been written to it. -/
def C116_report_statement : Prop :=
  ∀ (nslots aw al N : Nat) (x : Nat → In Nat), 0 < nslots → 1 ≤ wordsOf aw al N →
    (∀ t, (x t).frame_size = N) →
    ∀ k u, k < nslots → Finishes nslots aw al x k u →
      ∃ v, v < u ∧ writes (dma nslots aw al x v) (x v) = true ∧
        (busWord (dma nslots aw al x v) (x v)).1 = ((dma nslots aw al x u).slots k).word aw al

/-- Software loads both slots at clock 0; a transfer of two words to slot 0 begins at clock 1, and
software takes this slot back at clock 3, after the first word. -/
def withdrawn (t : Nat) : In Nat :=
  { valid := t != 3 && t != 4, sof := t == 1, pixels := t, busReady := true, wdataValid := false
    frame_size := 2
    sw := fun n => if t = 0 then ⟨some 1, some (100 + 100 * n)⟩
      else if t = 3 ∧ n = 0 then ⟨some 0, none⟩ else ⟨none, none⟩ }

/-- **C116** The second word is written to slot 0 at clock 5, although it has been taken back. -/
theorem C116_withdraw_violated : ¬ C116_withdraw_statement := by
  intro h
  obtain ⟨k, hk, hv, i, hi, ha⟩ := h 2 10 0 2 withdrawn (by decide) (by decide) (fun _ => rfl) 5 (by decide +kernel)
  have hi : i < 2 := hi
  have h0 : ((dma 2 10 0 withdrawn 5).slots 0).valid = false := by decide +kernel
  have h1 : ((dma 2 10 0 withdrawn 5).slots 1).word 10 0 = 200 := by decide +kernel
  have h2 : (busWord (dma 2 10 0 withdrawn 5) (withdrawn 5)).1 = 101 := by decide +kernel
  have : k = 0 ∨ k = 1 := by omega
  rcases this with rfl | rfl
  · rw [h0] at hv; exact absurd hv (by decide)
  · rw [h1, h2] at ha; omega

/-- **C116** At clock 6 slot 1 is reported done, although nothing has been written to it. -/
theorem C116_report_violated : ¬ C116_report_statement := by
  intro h
  obtain ⟨v, hv, hw, ha⟩ := h 2 10 0 2 withdrawn (by decide) (by decide) (fun _ => rfl) 1 6 (by decide)
    (by unfold Finishes; decide +kernel)
  have h1 : ((dma 2 10 0 withdrawn 6).slots 1).word 10 0 = 200 := by decide +kernel
  have key : ∀ v, v < 6 → writes (dma 2 10 0 withdrawn v) (withdrawn v) = true →
      (busWord (dma 2 10 0 withdrawn v) (withdrawn v)).1 ≠ 200 := by decide +kernel
  rw [h1] at ha
  exact key v hv hw ha

/-- A transfer in progress began at some clock, and has not been done since. -/
theorem begun_any {nslots aw al : Nat} {x : Nat → In α} (u : Nat) :
    (dma nslots aw al x u).fsm = .waitSof ∨ ∃ t n, u = t + 1 + n ∧ Begins nslots aw al x t ∧
      ∀ v, v < n → addressDone (dma nslots aw al x (t + 1 + v)) (x (t + 1 + v)) = false := by
  induction u with
  | zero => exact .inl rfl
  | succ u ih =>
    rcases ih with h | ⟨t, n, hu, hb, hn⟩
    · by_cases hb : (addressValid (dma nslots aw al x u) && (x u).sof && (x u).valid) = true
      · simp only [Bool.and_eq_true] at hb
        exact .inr ⟨u, 0, by omega, ⟨h, hb.1.1, hb.1.2, hb.2⟩, fun v hv => absurd hv (Nat.not_lt_zero v)⟩
      · refine .inl ?_
        rw [fsm_succ, h]
        simp only
        rw [if_neg hb]
    · cases hd : addressDone (dma nslots aw al x u) (x u) with
      | false =>
        refine .inr ⟨t, n + 1, by omega, hb, fun v hv => ?_⟩
        rcases Nat.lt_or_ge v n with h | h
        · exact hn v h
        · rw [show t + 1 + v = u by omega]; exact hd
      | true =>
        simp only [addressDone, Bool.and_eq_true, decide_eq_true_eq, Bool.not_eq_true'] at hd
        refine .inl ?_
        rw [fsm_succ, hd.1]
        simp only
        rw [hd.2]
        rfl

/-- **C116** (partial) Whatever software does, a transfer that is reported done at clock `e` has written
the number of words that `frame_size` asked for when it began, in order, from the address on that the
current slot had then.  If since then software has left that one slot alone, whatever it has done to
the others, this is the slot that is reported, and its address register points behind the last
word. -/
theorem C116_left_alone_partial (nslots aw al : Nat) (x : Nat → In α)
    (hN : ∀ t, Begins nslots aw al x t → 1 ≤ wordsOf aw al (x t).frame_size) (e : Nat)
    (hd : addressDone (dma nslots aw al x e) (x e) = true) :
    ∃ t n, e = t + 1 + n ∧ Begins nslots aw al x t ∧
      let s := dma nslots aw al x t
      let k := s.current_slot
      let a := (s.slots k).word aw al
      let ws := takenIn nslots aw al x (t + 1) n
      ws.length = wordsOf aw al (x t).frame_size ∧
      writesIn nslots aw al x (t + 1) n = block aw a ws ∧
      ((∀ v, t ≤ v → v ≤ e → (x v).sw k = { status := none, address := none }) →
        Finishes nslots aw al x k e ∧
        (dma nslots aw al x (e + 1)).slots k =
          { status := 2, address := (a + ws.length) % 2 ^ aw * 2 ^ al }) := by
  have hd' := hd
  simp only [addressDone, Bool.and_eq_true, decide_eq_true_eq, Bool.not_eq_true'] at hd'
  rcases begun_any (nslots := nslots) (aw := aw) (al := al) (x := x) e with h | ⟨t, n, hu, hb, hn⟩
  · rw [h] at hd'; exact absurd hd'.1 (by decide)
  · obtain ⟨i1, i2, i3⟩ := eof_any hb (hN t hb) n hn
    rw [← hu] at i2 i3
    rcases i3 with ⟨h, -⟩ | ⟨-, h⟩
    · rw [h] at hd'; exact absurd hd'.1 (by decide)
    · refine ⟨t, n, hu, hb, h, i1, fun off => ?_⟩
      obtain ⟨j1, j2⟩ := slot_any hb n (fun v h1 h2 => off v h1 (by omega)) hn
      rw [← hu] at j1 j2
      refine ⟨⟨hd'.1, hd'.2, j1⟩, ?_⟩
      show ((dma nslots aw al x e).slots _).step al ((x e).sw _)
        (addressDone _ _ && decide ((dma nslots aw al x e).current_slot = _)) _ = _
      rw [off e (by omega) (Nat.le_refl e), hd, j1, decide_eq_true rfl, i2]
      rfl

/-- A transfer to slot 0 during which software takes slot 1 back. -/
def otherWithdrawn (t : Nat) : In Nat :=
  { withdrawn t with
    sw := fun n => if t = 0 then ⟨some 1, some (100 + 100 * n)⟩
      else if t = 3 ∧ n = 1 then ⟨some 0, none⟩ else ⟨none, none⟩ }

/-- Hypotheses of C116. -/
example : (∀ t, 1 ≤ wordsOf 10 0 (otherWithdrawn t).frame_size) ∧ Begins 2 10 0 otherWithdrawn 1 ∧
    addressDone (dma 2 10 0 otherWithdrawn 6) (otherWithdrawn 6) = true ∧
    (∀ v, 1 ≤ v → v ≤ 6 → (otherWithdrawn v).sw 0 = { status := none, address := none }) ∧
    ((dma 2 10 0 otherWithdrawn 3).slots 1).valid = true ∧
    ((dma 2 10 0 otherWithdrawn 4).slots 1).valid = false ∧
    writesIn 2 10 0 otherWithdrawn 2 4 = [(100, 2), (101, 5)] := by
  refine ⟨fun _ => by simp [wordsOf, otherWithdrawn, withdrawn], by unfold Begins; decide +kernel,
    by decide +kernel, fun v h1 h2 => ?_, by decide +kernel, by decide +kernel, by decide +kernel⟩
  have : ¬ v = 0 := by omega
  simp [otherWithdrawn, this]

end Withdrawal

end Verif.Props
