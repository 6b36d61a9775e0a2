import Verif.Spec.Capture
import Verif.Proofs.Gated
import Verif.Proofs.AsyncFifo
import Verif.Props.Frame422
import Verif.Props.Dma
import Mathlib.Data.Nat.ModEq

/-!
# Capture path: lemmas
-/

namespace Verif.Capture

open Verif.Spec.Capture Verif.Spec.Frame Verif.Spec.Stream Verif.Gated Verif.Props

section Lemmas

variable {σ : Type} {w : Nat} {E : Extractor σ w} {depth nslots aw al : Nat} {x : Nat → In}

local notation "cap" => capture E depth nslots aw al x
local notation "pixE" => (fun u => In.pixEdge (x u))
local notation "sysE" => (fun u => In.sysEdge (x u))

theorem frame_at {V : Nat → Frame.In} (hV : Video x V) (t : Nat) :
    (cap t).frame = extract E V (ticks pixE t) := by
  refine trace_ticks E.step E.reset pixE (fun t => (cap t).frame) V rfl (fun t => ?_) t
  show (if (x t).pixEdge then E.step (cap t).frame (x t).video else _) = _
  by_cases h : (x t).pixEdge = true
  · rw [if_pos h, if_pos h, hV t h]
  · rw [if_neg h, if_neg h]

theorem fifo_at (t : Nat) :
    (cap t).fifo = trace (AsyncFifo.step depth) [] (fun u => fifoIn E (cap u) (x u)) t := by
  induction t with
  | zero => rfl
  | succ t ih =>
    show AsyncFifo.step depth (cap t).fifo (fifoIn E (cap t) (x t)) = _
    rw [ih]; rfl

theorem dma_at {D : Nat → Dma.In (List (BitVec w))}
    (hD : ∀ t, (x t).sysEdge = true → D (ticks sysE t) = dmaIn (cap t) (x t)) (t : Nat) :
    (cap t).dma = Spec.Dma.dma nslots aw al D (ticks sysE t) := by
  refine trace_ticks (Dma.step nslots aw al) Dma.reset sysE (fun t => (cap t).dma) D rfl
    (fun t => ?_) t
  show (if (x t).sysEdge then Dma.step nslots aw al (cap t).dma (dmaIn (cap t) (x t)) else _) = _
  by_cases h : (x t).sysEdge = true
  · rw [if_pos h, if_pos h, hD t h]
  · rw [if_neg h, if_neg h]

/-- What the extractor has offered since `T0` is what the FIFO has accepted. -/
theorem written_at {V : Nat → Frame.In} (hV : Video x V) (T0 n : Nat)
    (hno : NoOverflow E depth nslots aw al x T0 (T0 + n)) :
    AsyncFifo.written depth (fun u => fifoIn E (cap u) (x u)) (T0 + n) =
      AsyncFifo.written depth (fun u => fifoIn E (cap u) (x u)) T0 ++
      pickIn (fun c => offers E (extract E V c)) (fun c => offered E (extract E V c))
        (ticks pixE T0) (countIn pixE T0 n) := by
  unfold AsyncFifo.written
  rw [transferred_eq, transferred_eq, Frame.pickIn_add, Nat.zero_add]
  congr 1
  have := pick_ticks' pixE
    (fun u => offers E (cap u).frame &&
      AsyncFifo.sinkReady depth (cap u).fifo (fifoIn E (cap u) (x u)))
    (fun c => offers E (extract E V c)) (fun u => offered E (cap u).frame)
    (fun c => offered E (extract E V c)) T0 n
    (fun t ht0 ht hp => by
      constructor
      · rw [← frame_at (depth := depth) (nslots := nslots) (aw := aw) (al := al) hV t]
        cases hc : offers E (cap t).frame with
        | false => rfl
        | true =>
          obtain ⟨h1, h2⟩ := hno t ht0 ht hp hc
          simp [AsyncFifo.sinkReady, fifoIn, h1, h2]
      · rw [frame_at hV t])
  rw [← this]
  congr 1
  funext u
  show (((x u).pixEdge && offers E (cap u).frame) && AsyncFifo.sinkReady depth _ _) = _
  rw [← fifo_at, Bool.and_assoc]

/-- What the DMA has taken is what the FIFO has delivered. -/
theorem readOut_at {D : Nat → Dma.In (List (BitVec w))}
    (hD : ∀ t, (x t).sysEdge = true → D (ticks sysE t) = dmaIn (cap t) (x t)) (t : Nat) :
    AsyncFifo.readOut depth (fun u => fifoIn E (cap u) (x u)) t =
      pickIn (fun k => (D k).valid && Dma.frameReady (Spec.Dma.dma nslots aw al D k) (D k))
        (fun k => ((D k).sof, (D k).pixels)) 0 (ticks sysE t) := by
  induction t with
  | zero => rfl
  | succ t ih =>
    have hr : AsyncFifo.readOut depth (fun u => fifoIn E (cap u) (x u)) (t + 1) =
        AsyncFifo.readOut depth (fun u => fifoIn E (cap u) (x u)) t ++
        (if ((x t).sysEdge && Dma.frameReady (cap t).dma (dmaIn (cap t) (x t))) &&
          AsyncFifo.sourceValid (cap t).fifo (fifoIn E (cap t) (x t)) then
          (cap t).fifo.head?.toList else []) := by
      unfold AsyncFifo.readOut
      simp only [transferred, List.flatten_append]
      rw [← fifo_at]
      congr 1
      show List.flatten (if ((x t).sysEdge && Dma.frameReady (cap t).dma (dmaIn (cap t) (x t))) &&
          AsyncFifo.sourceValid (cap t).fifo (fifoIn E (cap t) (x t)) then _ else _) = _
      split <;> simp
    rw [hr, ih, ticks_succ]
    by_cases h : (x t).sysEdge = true
    · rw [if_pos h]
      show _ = pickIn _ _ 0 (ticks sysE t) ++ _
      rw [Nat.zero_add]
      simp only []
      rw [hD t h, ← dma_at hD, h, Bool.true_and]
      congr 1
      show (if Dma.frameReady (cap t).dma (dmaIn (cap t) (x t)) && ((x t).rok &&
        !(cap t).fifo.isEmpty) then _ else _) = _
      rw [Bool.and_comm]
      show (if ((x t).rok && !(cap t).fifo.isEmpty) && Dma.frameReady (cap t).dma
        (dmaIn (cap t) (x t)) then _ else _) = (if ((x t).rok && !(cap t).fifo.isEmpty) &&
        Dma.frameReady (cap t).dma (dmaIn (cap t) (x t)) then _ else _)
      split
      · rename_i hh
        simp only [Bool.and_eq_true, Bool.not_eq_true'] at hh
        cases hq : (cap t).fifo with
        | nil => rw [hq] at hh; simp at hh
        | cons w q => simp [dmaIn, hq]
      · rfl
    · rw [if_neg h, Bool.eq_false_iff.2 h]
      simp

theorem memory_append {α : Type} (l : List (Nat × α)) (aw a : Nat) (ws : List α)
    (hlen : ws.length ≤ 2 ^ aw) (i : Nat) (hi : i < ws.length) :
    memory (l ++ Spec.Dma.block aw a ws) ((a + i) % 2 ^ aw) = ws[i]? := by
  induction ws using List.reverseRecOn generalizing i with
  | nil => exact absurd hi (Nat.not_lt_zero i)
  | append_singleton ws w ih =>
    rw [List.length_append, List.length_singleton] at hlen hi
    rw [Dma.block_snoc, ← List.append_assoc]
    unfold memory at ih ⊢
    rw [List.foldl_append]
    show (if (a + i) % 2 ^ aw = (a + ws.length) % 2 ^ aw then some w else _) = _
    by_cases h : i = ws.length
    · subst h
      rw [if_pos rfl, List.getElem?_append_right (Nat.le_refl _), Nat.sub_self]
      rfl
    · rw [if_neg, ih (by omega) i (by omega), List.getElem?_append_left (by omega)]
      intro heq
      have : Nat.ModEq (2 ^ aw) (a + i) (a + ws.length) := heq
      have h2 := Nat.ModEq.add_left_cancel' a this
      have h3 := Nat.ModEq.eq_of_lt_of_lt h2 (by omega) (by omega)
      exact h h3

/-- The last instant up to `e` with a property. -/
theorem last_instant (P : Nat → Prop) (T0 e : Nat) (hT0 : T0 ≤ e) (h : P T0) :
    ∃ T1, T0 ≤ T1 ∧ T1 ≤ e ∧ P T1 ∧ ∀ T, T ≤ e → P T → T ≤ T1 := by
  induction e with
  | zero => exact ⟨T0, Nat.le_refl _, hT0, h, fun T hT _ => by omega⟩
  | succ e ih =>
    by_cases he : P (e + 1)
    · exact ⟨e + 1, hT0, Nat.le_refl _, he, fun T hT _ => hT⟩
    · rcases Nat.lt_or_ge e T0 with h0 | h0
      · rw [show T0 = e + 1 by omega] at h; exact absurd h he
      · obtain ⟨T1, h1, h2, h3, h4⟩ := ih h0
        refine ⟨T1, h1, by omega, h3, fun T hT hP => ?_⟩
        by_cases hTe : T = e + 1
        · rw [hTe] at hP; exact absurd hP he
        · exact h4 T (by omega) hP

variable (E depth nslots aw al x) in
/-- Number of words taken from the FIFO before instant `t`. -/
def readCount (t : Nat) : Nat :=
  (AsyncFifo.readOut depth (fun u => fifoIn E (cap u) (x u)) t).length

theorem readCount_mono {s t : Nat} (h : s ≤ t) :
    readCount E depth nslots aw al x s ≤ readCount E depth nslots aw al x t := by
  induction t with
  | zero => rw [show s = 0 by omega]
  | succ t ih =>
    rcases Nat.lt_or_ge t s with h1 | h1
    · rw [show s = t + 1 by omega]
    · refine Nat.le_trans (ih h1) ?_
      unfold readCount AsyncFifo.readOut
      rw [transferred, List.flatten_append, List.length_append]
      omega

variable (E depth nslots aw al x) in
/-- The transfer that is done at instant `e` began at instant `b`, the last one at which the DMA was
waiting, with the word offered at pixel clock `u`; it consists of `N` words. -/
structure Origin (V : Nat → Frame.In) (N T0 e b u : Nat) : Prop where
  last : ∀ T, T ≤ e → (cap T).dma.fsm = .waitSof → T ≤ b
  start : ticks pixE T0 ≤ u
  offer : offers E (extract E V u) = true
  count : readCount E depth nslots aw al x T0 +
    countIn (fun c => offers E (extract E V c)) (ticks pixE T0) (u - ticks pixE T0) =
      readCount E depth nslots aw al x b
  size : readCount E depth nslots aw al x (e + 1) = readCount E depth nslots aw al x b + N

theorem count_split (p : Nat → Bool) (a m n : Nat) :
    countIn p a (m + n) = countIn p a m + countIn p (a + m) n := by
  induction n with
  | zero => rfl
  | succ n ih =>
    show countIn p a (m + n + 1) = _
    rw [countIn, ih, countIn, Nat.add_assoc a m n, Nat.add_assoc]

/-- Words of later transfers are offered later. -/
theorem origin_order {V : Nat → Frame.In} {N T0 e b u e' b' u' k : Nat} (hN : 1 ≤ N)
    (h : Origin E depth nslots aw al x V N T0 e b u)
    (h' : Origin E depth nslots aw al x V N T0 e' b' u')
    (hd : Done E depth nslots aw al x e k) (he : e < e') : u < u' := by
  obtain ⟨hse, -, hdone⟩ := hd
  have hw : (cap (e + 1)).dma.fsm = .waitSof := by
    simp only [Dma.addressDone, Bool.and_eq_true, decide_eq_true_eq, Bool.not_eq_true'] at hdone
    show (if (x e).sysEdge then Dma.step nslots aw al (cap e).dma (dmaIn (cap e) (x e)) else _).fsm = _
    rw [if_pos hse]
    simp only [Dma.step, hdone.1]
    rw [if_neg (by rw [hdone.2]; decide)]
  have hb := readCount_mono (E := E) (depth := depth) (nslots := nslots) (aw := aw) (al := al) (x := x)
    (h'.last (e + 1) (by omega) hw)
  rcases Nat.lt_or_ge u u' with hlt | hge
  · exact hlt
  · have h1 := h.count; have h2 := h'.count; have h3 := h.size
    have h4 := h.start; have h5 := h'.start
    have h6 := count_split (fun c => offers E (extract E V c)) (ticks pixE T0) (u' - ticks pixE T0)
      (u - u')
    rw [show u' - ticks pixE T0 + (u - u') = u - ticks pixE T0 by omega] at h6
    omega

variable (E depth nslots aw al x) in
/-- The first word of the transfer that is done at instant `e` is the first one after the frame start
`t`. -/
def FrameOf (V : Nat → Frame.In) (N T0 e t : Nat) : Prop :=
  ∃ b u, Origin E depth nslots aw al x V N T0 e b u ∧ t + 2 ≤ u ∧
    ∀ v, t + 2 ≤ v → v < u → offers E (extract E V v) = false

theorem frameOf_order {V : Nat → Frame.In} {N T0 e t e' t' k : Nat} (hN : 1 ≤ N)
    (h : FrameOf E depth nslots aw al x V N T0 e t) (h' : FrameOf E depth nslots aw al x V N T0 e' t')
    (hd : Done E depth nslots aw al x e k) (he : e < e') : t < t' := by
  obtain ⟨b, u, o, h1, h2⟩ := h
  obtain ⟨b', u', o', h1', h2'⟩ := h'
  have hu := origin_order hN o o' hd he
  rcases Nat.lt_or_ge t t' with hlt | hge
  · exact hlt
  · have := h2' u (by omega) hu
    rw [o.offer] at this
    exact absurd this (by decide)

/-- Transfers that are done one by one and whose frames are known are done in order. -/
theorem in_order {V : Nat → Frame.In} {N T0 : Nat} (hN : 1 ≤ N)
    {P : Nat → Nat → List (List Nat) → Prop}
    (h : ∀ e k, T0 ≤ e → NoOverflow E depth nslots aw al x T0 (e + 1) → Done E depth nslots aw al x e k →
      ∃ b t ws, T0 ≤ b ∧ P e t ws ∧ Captured E depth nslots aw al x b e k ws ∧
        FrameOf E depth nslots aw al x V N T0 e t) : InOrder E depth nslots aw al x T0 P := by
  have hF : ∀ e, ∃ t, ∀ k, T0 ≤ e → NoOverflow E depth nslots aw al x T0 (e + 1) →
      Done E depth nslots aw al x e k → ∃ b ws, T0 ≤ b ∧ P e t ws ∧ Captured E depth nslots aw al x b e k ws ∧
        FrameOf E depth nslots aw al x V N T0 e t := by
    intro e
    by_cases hc : T0 ≤ e ∧ NoOverflow E depth nslots aw al x T0 (e + 1) ∧
        ∃ k, Done E depth nslots aw al x e k
    · obtain ⟨h1, h2, k, h3⟩ := hc
      obtain ⟨b, t, ws, h4⟩ := h e k h1 h2 h3
      refine ⟨t, fun k' _ _ h3' => ?_⟩
      rw [← h3'.2.1, h3.2.1]
      exact ⟨b, ws, h4⟩
    · exact ⟨0, fun k h1 h2 h3 => absurd ⟨h1, h2, k, h3⟩ hc⟩
  choose F hF using hF
  refine ⟨F, fun e k h1 h2 h3 => ?_, fun e k e' k' h1 h2 h3 h4 h5 => ?_⟩
  · obtain ⟨b, ws, h4, h5, h6, -⟩ := hF e k h1 h2 h3
    exact ⟨b, ws, h4, h5, h6⟩
  · obtain ⟨_, _, -, -, -, h6⟩ := hF e k h1 (fun t ht ht' => h3 t ht (by omega)) h4
    obtain ⟨_, _, -, -, -, h7⟩ := hF e' k' (by omega) h3 h5
    exact frameOf_order hN h6 h7 h4 h2

/-- Frames may be numbered in another way. -/
theorem inOrder_map {T0 : Nat} {P Q : Nat → Nat → List (List Nat) → Prop} (g : Nat → Nat)
    (h : InOrder E depth nslots aw al x T0 P) (hQ : ∀ e t ws, P e t ws → Q e (g t) ws)
    (hg : ∀ e t ws e' t' ws', P e t ws → P e' t' ws' → t < t' → g t < g t') :
    InOrder E depth nslots aw al x T0 Q := by
  obtain ⟨F, h1, h2⟩ := h
  refine ⟨fun e => g (F e), fun e k a1 a2 a3 => ?_, fun e k e' k' a1 a2 a3 a4 a5 => ?_⟩
  · obtain ⟨b, ws, b1, b2, b3⟩ := h1 e k a1 a2 a3
    exact ⟨b, ws, b1, hQ _ _ _ b2, b3⟩
  · obtain ⟨_, ws, -, b1, -⟩ := h1 e k a1 (fun t ht ht' => a3 t ht (by omega)) a4
    obtain ⟨_, ws', -, b2, -⟩ := h1 e' k' (by omega) a3 a5
    exact hg _ _ _ _ _ _ b1 b2 (h2 e k e' k' a1 a2 a3 a4 a5)

/-- A transfer that is complete consists of `N` words that were offered one after the other, the
first one being marked as start of frame. -/
theorem core {V : Nat → Frame.In} (hV : Video x V) (N : Nat) (hN : 1 ≤ N) (T0 e k : Nat)
    (hT0 : T0 ≤ e) (rest : AtRest E depth nslots aw al x T0)
    (hsize : ∀ t, T0 ≤ t → Dma.wordsOf aw al (x t).frame_size = N)
    (own : SoftwareOwns E depth nslots aw al x T0)
    (hno : NoOverflow E depth nslots aw al x T0 (e + 1))
    (hd : Done E depth nslots aw al x e k) :
    ∃ b u ws, T0 ≤ b ∧ ticks pixE T0 ≤ u ∧ u < ticks pixE (e + 1) ∧
      offers E (extract E V u) = true ∧ (offered E (extract E V u)).1 = true ∧
      ws.length = N ∧
      ws <+: pickIn (fun c => offers E (extract E V c)) (fun c => (offered E (extract E V c)).2) u
        (ticks pixE (e + 1) - u) ∧
      Captured E depth nslots aw al x b e k (ws.map pixels) ∧
      Origin E depth nslots aw al x V N T0 e b u := by
  obtain ⟨hse, hck, hdone⟩ := hd
  obtain ⟨hempty, hidle⟩ := rest
  let blank : Dma.In (List (BitVec w)) :=
    { valid := false, sof := false, pixels := [], busReady := false, wdataValid := false
      frame_size := 0, sw := fun _ => { status := none, address := none } }
  obtain ⟨D, hD, hDk⟩ := exists_seq sysE (fun u => dmaIn (cap u) (x u)) blank
  have hdma := dma_at (E := E) (depth := depth) (nslots := nslots) (aw := aw) (al := al) hD
  have hge : ∀ u, (x u).sysEdge = true → ticks sysE T0 ≤ ticks sysE u → T0 ≤ u := by
    intro u hu h
    rcases Nat.lt_or_ge u T0 with hlt | hge
    · have := ticks_lt sysE hu hlt; omega
    · exact hge
  have hown : Spec.Dma.OwnedFrom nslots aw al D (ticks sysE T0) := by
    intro c n hc hv
    rcases hDk c with h | ⟨u, hu, rfl⟩
    · rw [h]
    · rw [hD u hu]
      rw [← hdma u] at hv
      exact own u n (hge u hu hc) hu hv
  have hsz : ∀ c, ticks sysE T0 ≤ c → Spec.Dma.Begins nslots aw al D c →
      Dma.wordsOf aw al (D c).frame_size = N := by
    intro c hc hb
    rcases hDk c with h | ⟨u, hu, rfl⟩
    · have := hb.2.2.2
      rw [h] at this
      exact absurd (show false = true from this) (by decide)
    · rw [hD u hu]; exact hsize u (hge u hu hc)
  have hDe := hD e hse
  have hdone' : Dma.addressDone (Spec.Dma.dma nslots aw al D (ticks sysE e)) (D (ticks sysE e)) =
      true := by
    rw [← hdma e, hDe]; exact hdone
  obtain ⟨T1, hT01, hT1e, hidle1, hlast⟩ := last_instant (fun T => (cap T).dma.fsm = .waitSof) T0 e hT0 hidle
  have hτ01 : ticks sysE T0 ≤ ticks sysE T1 := ticks_mono _ hT01
  obtain ⟨t, n, ht1, hc, hb, hcur, hlen, hwr⟩ := C16_block_from nslots aw al D (ticks sysE T1)
    (by rw [← hdma]; exact hidle1) (fun c n hc => hown c n (by omega))
    (fun c hc hb => by rw [hsz c (by omega) hb]; exact hN) _ (ticks_mono _ hT1e) hdone'
  have ht0 : ticks sysE T0 ≤ t := by omega
  rw [hsz t ht0 hb] at hlen
  rw [← hdma e, hck] at hcur
  -- the instant at which the transfer begins
  obtain ⟨b, hbe, hsb, htb⟩ := tick_at sysE e t (by omega)
  have hTb : T0 ≤ b := hge b hsb (by omega)
  have hDb := hD b hsb
  have hdb := hdma b
  rw [htb] at hDb hdb
  have hbT : ∀ T, T ≤ e → (cap T).dma.fsm = .waitSof → T ≤ b := by
    intro T hT hw
    refine Nat.le_trans (hlast T hT hw) ?_
    rcases Nat.lt_or_ge b T1 with h | h
    · have := ticks_lt sysE hsb h; omega
    · exact h
  rw [← hdb] at hwr hcur
  rw [← hcur] at hwr
  have hval : ((cap b).dma.slots k).valid = true := by
    have := hb.2.1
    unfold Dma.addressValid at this
    rwa [← hdb, ← hcur] at this
  have htb1 : ticks sysE (b + 1) = t + 1 := by
    rw [ticks_succ, htb, if_pos hsb]
  have hte1 : ticks sysE (e + 1) = t + 1 + (n + 1) := by
    rw [ticks_succ, if_pos hse, hc]; omega
  have hcnt : countIn sysE (b + 1) (e - b) = n + 1 := by
    have := ticks_add sysE (b + 1) (e - b)
    rw [show b + 1 + (e - b) = e + 1 by omega, hte1, htb1] at this
    omega
  -- the writes at instants are the writes at system clocks
  have hwrites : memWrites E depth nslots aw al x (b + 1) (e - b) =
      Spec.Dma.writesIn nslots aw al D (t + 1) (n + 1) := by
    unfold memWrites Spec.Dma.writesIn
    rw [← htb1, ← hcnt]
    refine pick_ticks sysE _ _ _ _ (b + 1) (e - b) (fun u _ hu => ?_)
    rw [hD u hu, ← hdma u]
    exact ⟨rfl, rfl⟩
  have hall : memWrites E depth nslots aw al x 0 (e + 1) =
      memWrites E depth nslots aw al x 0 (b + 1) ++
      memWrites E depth nslots aw al x (b + 1) (e - b) := by
    unfold memWrites
    rw [show e + 1 = (b + 1) + (e - b) by omega, Frame.pickIn_add, Nat.zero_add]
  -- the words taken by the DMA are consecutive words of the FIFO
  set taken : Nat → Nat → List (Word w) := pickIn (fun c => (D c).valid &&
    Dma.frameReady (Spec.Dma.dma nslots aw al D c) (D c)) (fun c => ((D c).sof, (D c).pixels))
    with htaken
  have hws : (taken (t + 1) (n + 1)).map Prod.snd = Spec.Dma.takenIn nslots aw al D (t + 1) (n + 1) :=
    pickIn_map _ _ _ _ _
  have hskip : ∀ a m, a + m = t → taken a (m + 1) = taken a m := by
    intro a m ham
    rw [htaken]
    show pickIn _ _ a m ++ _ = _
    have : Dma.frameReady (Spec.Dma.dma nslots aw al D t) (D t) = false := by
      obtain ⟨b1, b2, b3, -⟩ := hb
      simp [Dma.frameReady, b1, b2, b3]
    simp only []
    rw [ham, this, Bool.and_false]
    simp
  set τ := ticks sysE T0 with hτ
  set ins := fun u => fifoIn E (cap u) (x u) with hins
  set W := pickIn (fun c => offers E (extract E V c)) (fun c => offered E (extract E V c))
    (ticks pixE T0) with hW
  -- what has been offered since `T0` is what has been taken since plus what is queued
  have hcons : ∀ m, T0 + m ≤ e + 1 → W (countIn pixE T0 m) =
      taken τ (countIn sysE T0 m) ++ (cap (T0 + m)).fifo := by
    intro m hm
    have h1 := (AsyncFifo.conserve depth ins (T0 + m)).1
    have h0 := (AsyncFifo.conserve depth ins T0).1
    rw [written_at hV T0 m (fun t h1 h2 => hno t h1 (by omega)), h0, ← fifo_at, ← fifo_at, hempty,
      List.append_nil, readOut_at hD, readOut_at hD, ticks_add sysE T0 m,
      Frame.pickIn_add _ _ 0, Nat.zero_add, List.append_assoc] at h1
    exact List.append_cancel_left h1
  have hse1 : countIn sysE T0 (e + 1 - T0) = (t - τ) + 1 + (n + 1) := by
    have := ticks_add sysE T0 (e + 1 - T0)
    rw [show T0 + (e + 1 - T0) = e + 1 by omega, hte1] at this
    omega
  have hsb1 : countIn sysE T0 (b - T0) = t - τ := by
    have := ticks_add sysE T0 (b - T0)
    rw [show T0 + (b - T0) = b by omega, htb] at this
    omega
  have hpe1 : countIn pixE T0 (e + 1 - T0) = ticks pixE (e + 1) - ticks pixE T0 := by
    have := ticks_add pixE T0 (e + 1 - T0)
    rw [show T0 + (e + 1 - T0) = e + 1 by omega] at this
    omega
  have hPle : ticks pixE T0 ≤ ticks pixE (e + 1) := ticks_mono _ (by omega)
  set P := ticks pixE (e + 1) with hP
  have hfull : W (P - ticks pixE T0) = taken τ (t - τ) ++
      (taken (t + 1) (n + 1) ++ (cap (e + 1)).fifo) := by
    have := hcons (e + 1 - T0) (by omega)
    rw [hpe1, hse1, show T0 + (e + 1 - T0) = e + 1 by omega] at this
    rw [this, ← List.append_assoc]
    congr 1
    show pickIn _ _ τ ((t - τ) + 1 + (n + 1)) = _
    rw [Frame.pickIn_add, show τ + (t - τ + 1) = t + 1 by omega]
    congr 1
    exact hskip τ (t - τ) (by omega)
  have hhead : (W (P - ticks pixE T0))[(taken τ (t - τ)).length]? = some ((D t).sof, (D t).pixels) := by
    have hb' := hcons (b - T0) (by omega)
    rw [hsb1, show T0 + (b - T0) = b by omega] at hb'
    have hle : countIn pixE T0 (b - T0) ≤ P - ticks pixE T0 := by
      have := ticks_add pixE T0 (b - T0)
      rw [show T0 + (b - T0) = b by omega] at this
      have h2 : ticks pixE b ≤ P := ticks_mono _ (by omega)
      omega
    have hpre : W (P - ticks pixE T0) = W (countIn pixE T0 (b - T0)) ++
        pickIn (fun c => offers E (extract E V c)) (fun c => offered E (extract E V c))
          (ticks pixE T0 + countIn pixE T0 (b - T0))
          (P - ticks pixE T0 - countIn pixE T0 (b - T0)) := by
      rw [hW, ← Frame.pickIn_add]
      congr 1; omega
    rw [hpre, hb']
    have hvalid := hb.2.2.2
    rw [hDb] at hvalid ⊢
    cases hq : (cap b).fifo with
    | nil => simp [dmaIn, hq] at hvalid
    | cons w q => simp [dmaIn, hq]
  obtain ⟨u, hu1, hu2, huv, huw, hdrop⟩ := pick_at' _ _ _ _ _ _ hhead
  rw [show ticks pixE T0 + (P - ticks pixE T0) = P by omega] at hu2 hdrop
  have husof : (offered E (extract E V u)).1 = true := by
    rw [huw]; exact hb.2.2.1
  have hlen' : (Spec.Dma.takenIn nslots aw al D (t + 1) (n + 1)).length = N := hlen
  have hNlt : N < 2 ^ aw := by
    rw [← hsize T0 (Nat.le_refl _)]; exact Dma.wordsOf_lt aw al _
  refine ⟨b, u, Spec.Dma.takenIn nslots aw al D (t + 1) (n + 1), hTb, hu1, hu2, huv, husof, hlen',
    ?_, ⟨hbe, hcur.symm, hval, ?_, ?_⟩, hbT, hu1, huv, ?_, ?_⟩
  · have h1 : (W (P - ticks pixE T0)).drop (taken τ (t - τ)).length =
        taken (t + 1) (n + 1) ++ (cap (e + 1)).fifo := by
      rw [hfull, List.drop_left]
    rw [hdrop] at h1
    have h2 := congrArg (List.map Prod.snd) h1
    rw [pickIn_map, List.map_append, hws] at h2
    exact ⟨_, h2.symm⟩
  · rw [hwrites, hwr]
    unfold Spec.Dma.block
    apply List.ext_getElem?
    intro i
    simp only [List.getElem?_map, List.getElem?_mapIdx, Option.map_map]
    rfl
  · intro i hi
    rw [List.length_map] at hi
    rw [hall, hwrites, hwr, memory_append _ _ _ _ (by omega) i hi, List.getElem?_map]
  · have h1 := congrArg List.length hdrop
    rw [List.length_drop, Dma.pickIn_length, Dma.pickIn_length] at h1
    have h2 := count_split (fun c => offers E (extract E V c)) (ticks pixE T0) (u - ticks pixE T0) (P - u)
    rw [show u - ticks pixE T0 + (P - u) = P - ticks pixE T0 by omega,
      show ticks pixE T0 + (u - ticks pixE T0) = u by omega] at h2
    have h3 := congrArg List.length hfull
    rw [List.length_append, hW, Dma.pickIn_length] at h3
    unfold readCount
    rw [readOut_at hD, readOut_at hD, htb, show t = τ + (t - τ) by omega, Frame.pickIn_add _ _ 0,
      List.length_append, Nat.zero_add]
    show _ = _ + (taken τ (t - τ)).length
    rw [← hτ]
    simp only [htaken, Dma.pickIn_length] at h1 h3 ⊢
    omega
  · unfold readCount
    rw [readOut_at hD, readOut_at hD, hte1, htb, Frame.pickIn_add _ _ 0 (t + 1), List.length_append,
      Nat.zero_add]
    have h1 : (pickIn (fun k => (D k).valid && Dma.frameReady (Spec.Dma.dma nslots aw al D k) (D k))
        (fun k => ((D k).sof, (D k).pixels)) 0 (t + 1)).length = (taken 0 t).length :=
      congrArg List.length (hskip 0 t (by omega))
    have h2 : (taken (t + 1) (n + 1)).length = N := by
      rw [← hlen', ← hws, List.length_map]
    rw [h1]
    exact congrArg _ h2

end Lemmas

section Frames

variable {σ : Type} {w : Nat} {E : Extractor σ w} {V : Nat → Frame.In}

/-- The start-of-frame mark is set by a frame start and stays until a word has been offered. -/
structure SofLaw (E : Extractor σ w) : Prop where
  step : ∀ (V : Nat → Frame.In) c, (offered E (extract E V (c + 2))).1 = true →
    FrameStarts V c ∨
      (offers E (extract E V (c + 1)) = false ∧ (offered E (extract E V (c + 1))).1 = true)
  first : ∀ V : Nat → Frame.In, (V 0).vsync = false → (offered E (extract E V 1)).1 = false
  reset : (offered E E.reset).1 = false

theorem sofLaw_rgb (pf : Nat) : SofLaw (rgb pf) := by
  refine ⟨fun V c h => ?_, fun V h => ?_, rfl⟩
  · have e : (offered (rgb pf) (extract (rgb pf) V (c + 2))).1 =
        if (V (c + 1)).vsync && !(V c).vsync then true
        else if offers (rgb pf) (extract (rgb pf) V (c + 1)) then false
        else (offered (rgb pf) (extract (rgb pf) V (c + 1))).1 := rfl
    rw [e] at h
    by_cases h1 : ((V (c + 1)).vsync && !(V c).vsync) = true
    · simp only [Bool.and_eq_true, Bool.not_eq_true'] at h1
      exact .inl ⟨h1.2, h1.1⟩
    · rw [if_neg h1] at h
      by_cases h2 : offers (rgb pf) (extract (rgb pf) V (c + 1)) = true
      · rw [if_pos h2] at h; exact absurd h (by decide)
      · rw [if_neg h2] at h
        exact .inr ⟨Bool.eq_false_iff.2 h2, h⟩
  · have e : (offered (rgb pf) (extract (rgb pf) V 1)).1 =
        if (V 0).vsync && true then true else false := rfl
    rw [e, h]; rfl

theorem sofLaw_ycbcr422 (pf : Nat) : SofLaw (ycbcr422 pf) := by
  refine ⟨fun V c h => ?_, fun V h => ?_, rfl⟩
  · have e : (offered (ycbcr422 pf) (extract (ycbcr422 pf) V (c + 2))).1 =
        if (V (c + 1)).vsync && !(V c).vsync then true
        else if offers (ycbcr422 pf) (extract (ycbcr422 pf) V (c + 1)) then false
        else (offered (ycbcr422 pf) (extract (ycbcr422 pf) V (c + 1))).1 := rfl
    rw [e] at h
    by_cases h1 : ((V (c + 1)).vsync && !(V c).vsync) = true
    · simp only [Bool.and_eq_true, Bool.not_eq_true'] at h1
      exact .inl ⟨h1.2, h1.1⟩
    · rw [if_neg h1] at h
      by_cases h2 : offers (ycbcr422 pf) (extract (ycbcr422 pf) V (c + 1)) = true
      · rw [if_pos h2] at h; exact absurd h (by decide)
      · rw [if_neg h2] at h
        exact .inr ⟨Bool.eq_false_iff.2 h2, h⟩
  · have e : (offered (ycbcr422 pf) (extract (ycbcr422 pf) V 1)).1 =
        if (V 0).vsync && true then true else false := rfl
    rw [e, h]; rfl

/-- A word marked as start of frame is the first since a frame start. -/
theorem sof_origin (law : SofLaw E) (h0 : (V 0).vsync = false) (u : Nat)
    (hs : (offered E (extract E V u)).1 = true) :
    ∃ t, t + 2 ≤ u ∧ FrameStarts V t ∧
      ∀ v, t + 2 ≤ v → v < u → offers E (extract E V v) = false := by
  induction u with
  | zero => exact absurd (law.reset.symm.trans hs) (by decide)
  | succ u ih =>
    cases u with
    | zero => rw [law.first V h0] at hs; exact absurd hs (by decide)
    | succ u =>
      rcases law.step V u hs with h | ⟨h1, h2⟩
      · exact ⟨u, by omega, h, fun v h1 h2 => by omega⟩
      · obtain ⟨t, h3, h4, h5⟩ := ih h2
        refine ⟨t, by omega, h4, fun v hv hvu => ?_⟩
        by_cases hvu' : v = u + 1
        · rw [hvu']; exact h1
        · exact h5 v hv (by omega)

/-- The same after a known frame start. -/
theorem sof_origin_from (law : SofLaw E) (f1 d : Nat) (hf1 : FrameStarts V f1)
    (hs : (offered E (extract E V (f1 + 2 + d))).1 = true) :
    ∃ t, f1 ≤ t ∧ t + 2 ≤ f1 + 2 + d ∧ FrameStarts V t ∧
      ∀ v, t + 2 ≤ v → v < f1 + 2 + d → offers E (extract E V v) = false := by
  induction d with
  | zero => exact ⟨f1, by omega, by omega, hf1, fun v h1 h2 => by omega⟩
  | succ d ih =>
    rcases law.step V (f1 + 1 + d) (by rwa [show f1 + 1 + d + 2 = f1 + 2 + (d + 1) by omega]) with
      h | ⟨h1, h2⟩
    · exact ⟨f1 + 1 + d, by omega, by omega, h, fun v h1 h2 => by omega⟩
    · rw [show f1 + 1 + d + 1 = f1 + 2 + d by omega] at h1 h2
      obtain ⟨t, h3, h4, h5, h6⟩ := ih h2
      refine ⟨t, h3, by omega, h5, fun v hv hvu => ?_⟩
      by_cases hvu' : v = f1 + 2 + d
      · rw [hvu']; exact h1
      · exact h6 v hv (by omega)

/-- The last frame start before a given one. -/
theorem previous_start (V : Nat → Frame.In) (t : Nat) :
    (∀ u, u < t → ¬ FrameStarts V u) ∨
    ∃ s m, t = s + 1 + m ∧ FrameStarts V s ∧ ∀ u, u < m → ¬ FrameStarts V (s + 1 + u) := by
  induction t with
  | zero => left; intro u hu; omega
  | succ t ih =>
    by_cases h : FrameStarts V t
    · right; exact ⟨t, 0, by omega, h, fun u hu => by omega⟩
    · rcases ih with h1 | ⟨s, m, h1, h2, h3⟩
      · left
        intro u hu
        by_cases hut : u = t
        · rw [hut]; exact h
        · exact h1 u (by omega)
      · right
        refine ⟨s, m + 1, by omega, h2, fun u hu => ?_⟩
        by_cases hum : u = m
        · rw [hum, ← h1]; exact h
        · exact h3 u (by omega)

/-- Next frame start within `m` clocks, if any. -/
theorem next_start (V : Nat → Frame.In) (t m : Nat) :
    (∀ u, u < m → ¬ FrameStarts V (t + 1 + u)) ∨
    ∃ n, n < m ∧ FrameStarts V (t + 1 + n) ∧ ∀ u, u < n → ¬ FrameStarts V (t + 1 + u) := by
  induction m with
  | zero => left; intro u hu; omega
  | succ m ih =>
    rcases ih with h | ⟨n, h1, h2, h3⟩
    · by_cases hs : FrameStarts V (t + 1 + m)
      · right; exact ⟨m, by omega, hs, h⟩
      · left
        intro u hu
        by_cases hum : u = m
        · rw [hum]; exact hs
        · exact h u (by omega)
    · right; exact ⟨n, by omega, h2, h3⟩

/-- The first `N` words since a frame start are words of that frame. -/
theorem frame_prefix (pf lat N f u P : Nat) (act : Nat → Nat → List Nat) (hN : 1 ≤ N)
    (hw : ∀ m, (∀ v, v < lat + m → ¬ FrameStarts V (f + 1 + v)) →
      (pickIn (fun c => offers E (extract E V c)) (fun c => (offered E (extract E V c)).2) (f + 2)
        (lat + m + 1)).map pixels = groups pf (act (f + 2) m))
    (hact : act (f + 2) 0 = [])
    (hnext : ∀ n, (∀ v, v < n → ¬ FrameStarts V (f + 1 + v)) → FrameStarts V (f + 1 + n) →
      ∃ m, n = lat + m ∧ N ≤ (groups pf (act (f + 2) m)).length)
    (hfu : f + 2 ≤ u) (huP : u < P)
    (hquiet : ∀ v, f + 2 ≤ v → v < u → offers E (extract E V v) = false)
    (ws : List (List (BitVec w))) (hlen : ws.length = N)
    (hpre : ws <+: pickIn (fun c => offers E (extract E V c))
      (fun c => (offered E (extract E V c)).2) u (P - u)) :
    ∃ m, lat + m + 1 ≤ P - (f + 2) ∧ (∀ v, v < lat + m → ¬ FrameStarts V (f + 1 + v)) ∧
      ws.map pixels = (groups pf (act (f + 2) m)).take N ∧ u ≤ f + 2 + lat + m := by
  set wo := pickIn (fun c => offers E (extract E V c)) (fun c => (offered E (extract E V c)).2)
    with hwo
  have hpre' : ws <+: wo (f + 2) (P - (f + 2)) := by
    rw [hwo, show P - (f + 2) = (u - (f + 2)) + (P - u) by omega, Frame.pickIn_add,
      Frame.pickIn_none _ _ (f + 2) (u - (f + 2))
        (fun j hj => hquiet (f + 2 + j) (by omega) (by omega)),
      show f + 2 + (u - (f + 2)) = u by omega]
    exact hpre
  have hcut : ∀ a, a ≤ P - (f + 2) → wo (f + 2) a <+: wo (f + 2) (P - (f + 2)) := by
    intro a ha
    rw [hwo, show P - (f + 2) = a + (P - (f + 2) - a) by omega, Frame.pickIn_add _ _ _ a]
    exact List.prefix_append _ _
  have htk : ∀ m, lat + m + 1 ≤ P - (f + 2) → N ≤ (wo (f + 2) (lat + m + 1)).length →
      (∀ v, v < lat + m → ¬ FrameStarts V (f + 1 + v)) →
      ws.map pixels = (groups pf (act (f + 2) m)).take N ∧ u ≤ f + 2 + lat + m := by
    intro m hm hge hno
    refine ⟨?_, ?_⟩
    rotate_left
    · rcases Nat.lt_or_ge (f + 2 + lat + m) u with h | h
      · rw [hwo, Frame.pickIn_none _ _ (f + 2) (lat + m + 1)
          (fun j hj => hquiet (f + 2 + j) (by omega) (by omega))] at hge
        simp at hge
        omega
      · exact h
    rw [← hw m hno, ← List.map_take]
    congr 1
    have h1 := List.prefix_of_prefix_length_le hpre' (hcut _ hm) (by omega)
    rw [← hlen]
    exact List.prefix_iff_eq_take.1 h1
  have hearly : ∀ v, v < lat → ¬ FrameStarts V (f + 1 + v) := by
    rcases next_start V f lat with h | ⟨n, h1, h2, h3⟩
    · exact h
    · obtain ⟨m, h4, -⟩ := hnext n h3 h2
      omega
  have hnone : wo (f + 2) (lat + 1) = [] := by
    have := hw 0 hearly
    rw [hact] at this
    exact List.map_eq_nil_iff.1 (this.trans (by simp [groups]))
  have hlat : lat + 1 < P - (f + 2) := by
    rcases Nat.lt_or_ge (lat + 1) (P - (f + 2)) with h | h
    · exact h
    · exfalso
      have h1 : wo (f + 2) (P - (f + 2)) <+: wo (f + 2) (lat + 1) := by
        rw [hwo, show lat + 1 = (P - (f + 2)) + (lat + 1 - (P - (f + 2))) by omega,
          Frame.pickIn_add _ _ _ (P - (f + 2))]
        exact List.prefix_append _ _
      rw [hnone] at h1
      have := (hpre'.trans h1).length_le
      rw [List.length_nil] at this
      omega
  rcases next_start V f (P - (f + 2) - 1) with h | ⟨n, hn, h2, h3⟩
  · have e : lat + (P - (f + 2) - 1 - lat) = P - (f + 2) - 1 := by omega
    refine ⟨P - (f + 2) - 1 - lat, by omega, by rw [e]; exact h, ?_⟩
    apply htk _ (by omega) _ (by rw [e]; exact h)
    rw [e, show P - (f + 2) - 1 + 1 = P - (f + 2) by omega, ← hlen]
    exact hpre'.length_le
  · obtain ⟨m, rfl, h4⟩ := hnext n h3 h2
    refine ⟨m, by omega, h3, ?_⟩
    apply htk m (by omega) _ h3
    rw [← hw m h3, List.length_map] at h4
    exact h4

end Frames

end Verif.Capture
