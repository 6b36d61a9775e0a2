import Verif.Proofs.Capture

/-!
# Capture path: progress lemmas
-/

namespace Verif.AsyncFifo

/-- A queued word comes closer to the head of the FIFO whenever another word is taken, and moves
away never. -/
theorem step_mem {α : Type} (depth : Nat) (pre post : List α) (z : α) (i : In α)
    (h : pre = [] → (i.rok && i.pop) = false) :
    ∃ pre' post', step depth (pre ++ z :: post) i = pre' ++ z :: post' ∧
      pre'.length = pre.length - (if i.rok && i.pop then 1 else 0) := by
  have hv : sourceValid (pre ++ z :: post) i = i.rok := by simp [sourceValid]
  unfold step
  rw [hv]
  cases hp : (i.rok && i.pop) with
  | false =>
    simp only [Bool.false_eq_true, if_false]
    split
    · exact ⟨pre, post ++ [i.data], by simp, by simp⟩
    · exact ⟨pre, post, rfl, by simp⟩
  | true =>
    cases pre with
    | nil => rw [h rfl] at hp; exact absurd hp (by decide)
    | cons a pre =>
      simp only [if_true]
      split
      · exact ⟨pre, post ++ [i.data], by simp, by simp⟩
      · exact ⟨pre, post, by simp, by simp⟩

theorem step_push {α : Type} (depth : Nat) (q : List α) (i : In α)
    (h : (i.wok && decide (q.length < depth) && i.push) = true) :
    ∃ q', step depth q i = q' ++ [i.data] := by
  unfold step
  simp only [sinkReady, h, if_true]
  exact ⟨_, rfl⟩

end Verif.AsyncFifo

namespace Verif.Capture

open Verif.Spec.Capture Verif.Spec.Frame Verif.Spec.Stream Verif.Gated Verif.Props

theorem first_of {p : Nat → Prop} {T u : Nat} (hu : T ≤ u) (hp : p u) :
    ∃ v, T ≤ v ∧ p v ∧ ∀ w, T ≤ w → w < v → ¬ p w := by
  classical
  induction u using Nat.strongRecOn with
  | _ u ih =>
    by_cases h : ∃ w, T ≤ w ∧ w < u ∧ p w
    · obtain ⟨w, h1, h2, h3⟩ := h
      exact ih w h2 h1 h3
    · exact ⟨u, hu, hp, fun w h1 h2 h3 => h ⟨w, h1, h2, h3⟩⟩

section Lemmas

/-- What the progress of a transfer rests on: system clocks keep coming; what the FIFO holds is taken, or
is at least shown at a system clock at which the memory is ready; and unless words are handed over the
write data in transit is gone after a while. -/
structure Moves {σ : Type} {w : Nat} (E : Extractor σ w) (depth nslots aw al : Nat) (x : Nat → In) :
    Prop where
  sys : ∀ T, ∃ u, T ≤ u ∧ (x u).sysEdge = true
  bus : ∀ T, ∃ u, T ≤ u ∧ ((capture E depth nslots aw al x u).fifo = [] ∨
    ((x u).sysEdge = true ∧ (x u).rok = true ∧
      (Dma.frameReady (capture E depth nslots aw al x u).dma
        (dmaIn (capture E depth nslots aw al x u) (x u)) = true ∨ (x u).busReady = true)))
  drained : ∀ T, ∃ u, T ≤ u ∧ (x u).sysEdge = true ∧
    ((x u).wdataValid = false ∨ Dma.writes (capture E depth nslots aw al x u).dma
      (dmaIn (capture E depth nslots aw al x u) (x u)) = true)

variable {σ : Type} {w : Nat} {E : Extractor σ w} {depth nslots aw al : Nat} {x : Nat → In}

local notation "cap" => capture E depth nslots aw al x

theorem moves_of_alive (alive : Alive x) : Moves E depth nslots aw al x where
  sys T := by obtain ⟨u, h1, h2, -⟩ := alive.bus T; exact ⟨u, h1, h2⟩
  bus T := by
    obtain ⟨u, h1, h2, h3, h4⟩ := alive.bus T
    exact ⟨u, h1, .inr ⟨h2, h3, .inr h4⟩⟩
  drained T := by
    obtain ⟨u, h1, h2, h3⟩ := alive.drained T
    exact ⟨u, h1, h2, .inl h3⟩

theorem dma_next (t : Nat) : (cap (t + 1)).dma =
    if (x t).sysEdge then Dma.step nslots aw al (cap t).dma (dmaIn (cap t) (x t))
    else (cap t).dma := rfl

theorem dma_still {T u : Nat} (hu : T ≤ u) (h : ∀ v, T ≤ v → v < u → ¬ (x v).sysEdge = true) :
    (cap u).dma = (cap T).dma := by
  induction u with
  | zero => rw [Nat.le_zero.1 hu]
  | succ u ih =>
    rcases Nat.lt_or_eq_of_le hu with h' | rfl
    · rw [dma_next, if_neg (h u (by omega) (by omega)), ih (by omega) fun v h1 h2 => h v h1 (by omega)]
    · rfl

/-- A LOADED slot stays so until its transfer is done. -/
theorem valid_next {T0 t n : Nat} (own : SoftwareOwns E depth nslots aw al x T0) (ht : T0 ≤ t)
    (hv : ((cap t).dma.slots n).valid = true) (hd : ¬ Done E depth nslots aw al x t n) :
    ((cap (t + 1)).dma.slots n).valid = true := by
  rw [dma_next]
  by_cases hs : (x t).sysEdge = true
  · rw [if_pos hs]
    have hsw := own t n ht hs hv
    show (((cap t).dma.slots n).step al ((x t).sw n) _ _).valid = true
    rw [hsw]
    have : (Dma.addressDone (cap t).dma (dmaIn (cap t) (x t)) &&
        decide ((cap t).dma.current_slot = n)) = false := by
      rw [Bool.eq_false_iff]
      intro h
      simp only [Bool.and_eq_true, decide_eq_true_eq] at h
      exact hd ⟨hs, h.2, h.1⟩
    rw [this]
    exact hv
  · rw [if_neg hs]; exact hv

/-- The slot that is being filled is LOADED. -/
def Busy (E : Extractor σ w) (depth nslots aw al : Nat) (x : Nat → In) (t : Nat) : Prop :=
  (capture E depth nslots aw al x t).dma.fsm ≠ .waitSof →
    Dma.addressValid (capture E depth nslots aw al x t).dma = true

theorem current_next {t : Nat} (hv : Dma.addressValid (cap t).dma = true)
    (hd : ¬ ∃ k, Done E depth nslots aw al x t k) :
    (cap (t + 1)).dma.current_slot = (cap t).dma.current_slot := by
  rw [dma_next]
  by_cases hs : (x t).sysEdge = true
  · rw [if_pos hs]
    show (if !Dma.addressValid (cap t).dma || Dma.addressDone (cap t).dma (dmaIn (cap t) (x t))
      then _ else _) = _
    have : Dma.addressDone (cap t).dma (dmaIn (cap t) (x t)) = false := by
      rw [Bool.eq_false_iff]
      intro h
      exact hd ⟨_, hs, rfl, h⟩
    rw [hv, this]
    rfl
  · rw [if_neg hs]

theorem addressValid_next {T0 t : Nat} (own : SoftwareOwns E depth nslots aw al x T0)
    (ht : T0 ≤ t) (hv : Dma.addressValid (cap t).dma = true)
    (hd : ¬ ∃ k, Done E depth nslots aw al x t k) :
    Dma.addressValid (cap (t + 1)).dma = true := by
  unfold Dma.addressValid
  rw [current_next hv hd]
  exact valid_next own ht hv fun h => hd ⟨_, h⟩

theorem fsm_next (t : Nat) : (cap (t + 1)).dma.fsm = if (x t).sysEdge then
      match (cap t).dma.fsm with
      | .waitSof => if Dma.addressValid (cap t).dma && (dmaIn (cap t) (x t)).sof &&
          (dmaIn (cap t) (x t)).valid then .transferPixels else .waitSof
      | .transferPixels => if (dmaIn (cap t) (x t)).valid && (x t).busReady &&
          decide ((cap t).dma.mwords_remaining = 1) then .eof else .transferPixels
      | .eof => if (x t).wdataValid then .eof else .waitSof
    else (cap t).dma.fsm := by
  rw [dma_next]
  split <;> rfl

theorem busy_next {T0 t : Nat} (own : SoftwareOwns E depth nslots aw al x T0) (ht : T0 ≤ t)
    (hb : Busy E depth nslots aw al x t) : Busy E depth nslots aw al x (t + 1) := by
  intro hne
  by_cases hf : (cap t).dma.fsm = .waitSof
  · rw [fsm_next, hf] at hne
    by_cases hs : (x t).sysEdge = true
    · rw [if_pos hs] at hne
      simp only [] at hne
      split at hne
      · rename_i h
        simp only [Bool.and_eq_true] at h
        refine addressValid_next own ht h.1.1 fun ⟨k, hd⟩ => ?_
        have := hd.2.2
        simp [Dma.addressDone, hf] at this
      · exact absurd rfl hne
    · rw [if_neg hs] at hne; exact absurd rfl hne
  · refine addressValid_next own ht (hb hf) fun ⟨k, hd⟩ => hne ?_
    have := hd.2.2
    simp only [Dma.addressDone, Bool.and_eq_true, decide_eq_true_eq, Bool.not_eq_true'] at this
    rw [fsm_next, if_pos hd.1, this.1]
    simp only []
    have h2 : (x t).wdataValid = false := this.2
    rw [h2]
    rfl

theorem busy_from {T0 : Nat} (own : SoftwareOwns E depth nslots aw al x T0)
    (h0 : (cap T0).dma.fsm = .waitSof) (t : Nat) (ht : T0 ≤ t) :
    Busy E depth nslots aw al x t := by
  induction t with
  | zero => rw [Nat.le_zero.1 ht] at h0; exact fun h => absurd h0 h
  | succ t ih =>
    rcases Nat.lt_or_eq_of_le ht with h | rfl
    · exact busy_next own (by omega) (ih (by omega))
    · exact fun h => absurd h0 h

theorem fifo_next (t : Nat) : (cap (t + 1)).fifo =
    AsyncFifo.step depth (cap t).fifo (fifoIn E (cap t) (x t)) := rfl

/-- Waiting with no slot selected: a LOADED slot will be selected. -/
theorem selects {T0 T n : Nat} (own : SoftwareOwns E depth nslots aw al x T0) (hT : T0 ≤ T)
    (alive : ∀ T, ∃ u, T ≤ u ∧ (x u).sysEdge = true)
    (hw : (cap T).dma.fsm = .waitSof) (hn : n < nslots)
    (hv : ((cap T).dma.slots n).valid = true) :
    ∃ u, T ≤ u ∧ (cap u).dma.fsm = .waitSof ∧ Dma.addressValid (cap u).dma = true := by
  by_cases ha : Dma.addressValid (cap T).dma = true
  · exact ⟨T, Nat.le_refl _, hw, ha⟩
  obtain ⟨u0, hu0, hs0⟩ := alive T
  obtain ⟨u, hu, hs, hno⟩ := first_of (p := fun u => (x u).sysEdge = true) hu0 hs0
  have hd := dma_still (E := E) (depth := depth) (nslots := nslots) (aw := aw) (al := al) hu hno
  have ha' : Dma.addressValid (cap u).dma = false := by rw [hd]; exact Bool.eq_false_iff.2 ha
  have hw' : (cap u).dma.fsm = .waitSof := by rw [hd]; exact hw
  refine ⟨u + 1, by omega, ?_, ?_⟩
  · rw [fsm_next, if_pos hs, hw']
    simp only []
    rw [ha']
    rfl
  · have hcur : (cap (u + 1)).dma.current_slot = Dma.selectSlot nslots (cap u).dma := by
      rw [dma_next, if_pos hs]
      show (if !Dma.addressValid (cap u).dma || _ then _ else _) = _
      rw [ha']
      rfl
    unfold Dma.addressValid
    rw [hcur]
    have hsel : ((cap u).dma.slots (Dma.selectSlot nslots (cap u).dma)).valid = true := by
      unfold Dma.selectSlot
      cases hf : (List.range nslots).find? fun n => ((cap u).dma.slots n).valid with
      | none =>
        have := List.find?_eq_none.1 hf n (List.mem_range.2 hn)
        rw [hd, hv] at this
        exact absurd rfl this
      | some m =>
        have := List.find?_some hf
        exact this
    refine valid_next own (by omega) hsel fun h => ?_
    have := h.2.2
    simp [Dma.addressDone, hw'] at this

/-- Waiting with a slot selected and a start-of-frame word queued: a transfer will begin. -/
theorem begins {T0 N : Nat} (own : SoftwareOwns E depth nslots aw al x T0)
    (hsize : ∀ t, T0 ≤ t → Dma.wordsOf aw al (x t).frame_size = N)
    (moves : Moves E depth nslots aw al x)
    (k : Nat) : ∀ (T : Nat) (pre post : List (Word w)) (p : List (BitVec w)), T0 ≤ T →
    (cap T).dma.fsm = .waitSof → Dma.addressValid (cap T).dma = true → pre.length ≤ k →
    (cap T).fifo = pre ++ (true, p) :: post →
    ∃ u, T ≤ u ∧ (cap u).dma.fsm = .transferPixels ∧ (cap u).dma.mwords_remaining = N := by
  have hstep : ∀ (T : Nat) (pre post : List (Word w)) (p : List (BitVec w)), T0 ≤ T →
      (cap T).dma.fsm = .waitSof → Dma.addressValid (cap T).dma = true →
      (cap T).fifo = pre ++ (true, p) :: post →
      ((cap (T + 1)).dma.fsm = .transferPixels ∧ (cap (T + 1)).dma.mwords_remaining = N) ∨
      ∃ pre' post', (cap (T + 1)).dma.fsm = .waitSof ∧ Dma.addressValid (cap (T + 1)).dma = true ∧
        (cap (T + 1)).fifo = pre' ++ (true, p) :: post' ∧ pre'.length ≤ pre.length ∧
        ((x T).sysEdge = true → (x T).rok = true → pre'.length < pre.length) := by
    intro T pre post p hT hw ha hf
    have hmw : (x T).sysEdge = true → (cap (T + 1)).dma.mwords_remaining = N := by
      intro hs
      rw [dma_next, if_pos hs]
      show (if (cap T).dma.fsm = .waitSof then _ else _) = _
      rw [if_pos hw]
      exact hsize T hT
    have hnd : ¬ ∃ k, Done E depth nslots aw al x T k := fun ⟨k, hd⟩ => by
      have := hd.2.2
      simp [Dma.addressDone, hw] at this
    by_cases hg : (x T).sysEdge = true ∧ ((dmaIn (cap T) (x T)).sof &&
        (dmaIn (cap T) (x T)).valid) = true
    · left
      obtain ⟨hs, hg⟩ := hg
      refine ⟨?_, hmw hs⟩
      rw [fsm_next, if_pos hs, hw]
      simp only []
      rw [ha, Bool.true_and, hg]
      rfl
    · right
      have hw1 : (cap (T + 1)).dma.fsm = .waitSof := by
        rw [fsm_next, hw]
        by_cases hs : (x T).sysEdge = true
        · rw [if_pos hs]
          simp only []
          rw [ha, Bool.true_and, if_neg]
          exact fun h => hg ⟨hs, h⟩
        · rw [if_neg hs]
      have ha1 := addressValid_next own hT ha hnd
      have hpop : (fifoIn E (cap T) (x T)).pop =
          ((x T).sysEdge && !(dmaIn (cap T) (x T)).sof) := by
        show ((x T).sysEdge && Dma.frameReady (cap T).dma (dmaIn (cap T) (x T))) = _
        unfold Dma.frameReady
        rw [hw]
        simp only []
        rw [ha]
        rfl
      have hrok : (fifoIn E (cap T) (x T)).rok = (x T).rok := rfl
      have hvalid : (dmaIn (cap T) (x T)).valid = (x T).rok := by
        show ((x T).rok && !(cap T).fifo.isEmpty) = _
        rw [hf]; simp
      have hpre : pre = [] → (dmaIn (cap T) (x T)).sof = true := by
        rintro rfl
        show ((cap T).fifo.head?.getD (false, [])).1 = true
        rw [hf]; rfl
      obtain ⟨pre', post', h1, h2⟩ := AsyncFifo.step_mem depth pre post (true, p)
        (fifoIn E (cap T) (x T)) (fun h => by rw [hpop, hpre h]; simp)
      refine ⟨pre', post', hw1, ha1, by rw [fifo_next, hf]; exact h1, by omega, fun hs hr => ?_⟩
      have hsof : (dmaIn (cap T) (x T)).sof = false := by
        rw [Bool.eq_false_iff]
        intro h
        exact hg ⟨hs, by rw [h, hvalid, hr]; rfl⟩
      have hne : pre ≠ [] := fun h => by rw [hpre h] at hsof; exact absurd hsof (by decide)
      have := List.length_pos_iff.2 hne
      rw [hpop, hrok, hs, hsof, hr] at h2
      simp only [Bool.not_false, Bool.and_true, if_true] at h2
      omega
  -- between two chances nothing is lost
  have hwait : ∀ (n T : Nat) (pre post : List (Word w)) (p : List (BitVec w)), T0 ≤ T →
      (cap T).dma.fsm = .waitSof → Dma.addressValid (cap T).dma = true →
      (cap T).fifo = pre ++ (true, p) :: post →
      (∃ u, T ≤ u ∧ (cap u).dma.fsm = .transferPixels ∧ (cap u).dma.mwords_remaining = N) ∨
      ∃ pre' post', (cap (T + n)).dma.fsm = .waitSof ∧
        Dma.addressValid (cap (T + n)).dma = true ∧
        (cap (T + n)).fifo = pre' ++ (true, p) :: post' ∧ pre'.length ≤ pre.length := by
    intro n
    induction n with
    | zero => exact fun T pre post p _ h1 h2 h3 => .inr ⟨pre, post, h1, h2, h3, Nat.le_refl _⟩
    | succ n ih =>
      intro T pre post p hT h1 h2 h3
      rcases ih T pre post p hT h1 h2 h3 with h | ⟨pre', post', g1, g2, g3, g4⟩
      · exact .inl h
      · rcases hstep (T + n) pre' post' p (by omega) g1 g2 g3 with h | ⟨pre'', post'', k1, k2, k3, k4, -⟩
        · exact .inl ⟨T + n + 1, by omega, h⟩
        · exact .inr ⟨pre'', post'', k1, k2, k3, by omega⟩
  induction k with
  | zero =>
    intro T pre post p hT h1 h2 hk h3
    obtain ⟨u, hu, hsr⟩ := moves.bus T
    rcases hwait (u - T) T pre post p hT h1 h2 h3 with h | ⟨pre', post', g1, g2, g3, g4⟩
    · exact h
    · rw [show T + (u - T) = u by omega] at g1 g2 g3
      obtain ⟨hs, hr, -⟩ := hsr.resolve_left (by rw [g3]; simp)
      rcases hstep u pre' post' p (by omega) g1 g2 g3 with h | ⟨pre'', post'', k1, k2, k3, k4, k5⟩
      · exact ⟨u + 1, by omega, h⟩
      · have := k5 hs hr; omega
  | succ k ih =>
    intro T pre post p hT h1 h2 hk h3
    obtain ⟨u, hu, hsr⟩ := moves.bus T
    rcases hwait (u - T) T pre post p hT h1 h2 h3 with h | ⟨pre', post', g1, g2, g3, g4⟩
    · exact h
    · rw [show T + (u - T) = u by omega] at g1 g2 g3
      obtain ⟨hs, hr, -⟩ := hsr.resolve_left (by rw [g3]; simp)
      rcases hstep u pre' post' p (by omega) g1 g2 g3 with h | ⟨pre'', post'', k1, k2, k3, k4, k5⟩
      · exact ⟨u + 1, by omega, h⟩
      · have := k5 hs hr
        obtain ⟨v, hv, h⟩ := ih (u + 1) pre'' post'' p (by omega) k1 k2 (by omega) k3
        exact ⟨v, by omega, h⟩

/-- Waiting with a slot selected: a transfer will begin if start-of-frame words keep coming. -/
theorem begins' {T0 N : Nat} (own : SoftwareOwns E depth nslots aw al x T0)
    (hsize : ∀ t, T0 ≤ t → Dma.wordsOf aw al (x t).frame_size = N)
    (moves : Moves E depth nslots aw al x)
    (sofs : ∀ T, ∃ u, T ≤ u ∧ (x u).pixEdge = true ∧ offers E (cap u).frame = true ∧
      (offered E (cap u).frame).1 = true)
    (hno : ∀ T, NoOverflow E depth nslots aw al x T0 T) (T : Nat) (hT : T0 ≤ T)
    (hw : (cap T).dma.fsm = .waitSof) (ha : Dma.addressValid (cap T).dma = true) :
    ∃ u, T ≤ u ∧ (cap u).dma.fsm = .transferPixels ∧ (cap u).dma.mwords_remaining = N := by
  have hwait : ∀ n, (∃ u, T ≤ u ∧ (cap u).dma.fsm = .transferPixels ∧
      (cap u).dma.mwords_remaining = N) ∨
      ((cap (T + n)).dma.fsm = .waitSof ∧ Dma.addressValid (cap (T + n)).dma = true) := by
    intro n
    induction n with
    | zero => exact .inr ⟨hw, ha⟩
    | succ n ih =>
      rcases ih with h | ⟨h1, h2⟩
      · exact .inl h
      have hnd : ¬ ∃ k, Done E depth nslots aw al x (T + n) k := fun ⟨k, hd⟩ => by
        have := hd.2.2
        simp [Dma.addressDone, h1] at this
      have h3 := addressValid_next own (by omega) h2 hnd
      by_cases hs : (x (T + n)).sysEdge = true
      · have hf := fsm_next (E := E) (depth := depth) (nslots := nslots) (aw := aw) (al := al)
          (x := x) (T + n)
        rw [if_pos hs, h1] at hf
        simp only [] at hf
        split at hf
        · left
          refine ⟨T + n + 1, by omega, hf, ?_⟩
          rw [dma_next, if_pos hs]
          show (if (cap (T + n)).dma.fsm = .waitSof then _ else _) = _
          rw [if_pos h1]
          exact hsize _ (by omega)
        · right
          exact ⟨hf, h3⟩
      · right
        refine ⟨?_, h3⟩
        show (cap (T + n + 1)).dma.fsm = _
        rw [fsm_next, if_neg hs]; exact h1
  obtain ⟨u, hu, hp, ho, hsof⟩ := sofs T
  obtain ⟨h1, h2⟩ := hno (u + 1) u (by omega) (by omega) hp ho
  obtain ⟨q, hq⟩ := AsyncFifo.step_push depth (cap u).fifo (fifoIn E (cap u) (x u)) (by
    show ((x u).wok && decide ((cap u).fifo.length < depth) &&
      ((x u).pixEdge && offers E (cap u).frame)) = true
    simp [h1, h2, hp, ho])
  rcases hwait (u + 1 - T) with h | ⟨g1, g2⟩
  · exact h
  rw [show T + (u + 1 - T) = u + 1 by omega] at g1 g2
  obtain ⟨v, hv, h⟩ := begins own hsize moves q.length (u + 1) q [] (offered E (cap u).frame).2
    (by omega) g1 g2 (Nat.le_refl _) (by
      rw [fifo_next, hq, ← hsof]; rfl)
  exact ⟨v, by omega, h⟩

/-- A transfer in progress takes its next word. -/
theorem takes {T0 : Nat}
    (moves : Moves E depth nslots aw al x)
    (words : ∀ T, ∃ u, T ≤ u ∧ (x u).pixEdge = true ∧ offers E (cap u).frame = true)
    (hno : ∀ T, NoOverflow E depth nslots aw al x T0 T) (m : Nat) (hm : m + 1 < 2 ^ aw) (T : Nat)
    (hT : T0 ≤ T) (hf : (cap T).dma.fsm = .transferPixels)
    (hr : (cap T).dma.mwords_remaining = m + 1) :
    ∃ u, T ≤ u ∧ (cap u).dma.mwords_remaining = m ∧
      (cap u).dma.fsm = if m = 0 then .eof else .transferPixels := by
  have hstep : ∀ T, (cap T).dma.fsm = .transferPixels → (cap T).dma.mwords_remaining = m + 1 →
      ((cap (T + 1)).dma.mwords_remaining = m ∧
        (cap (T + 1)).dma.fsm = if m = 0 then .eof else .transferPixels) ∨
      ((cap (T + 1)).dma.fsm = .transferPixels ∧ (cap (T + 1)).dma.mwords_remaining = m + 1 ∧
        ((cap T).fifo ≠ [] → (cap (T + 1)).fifo ≠ []) ∧
        ¬ ((x T).sysEdge = true ∧ (x T).rok = true ∧ (x T).busReady = true ∧
          (cap T).fifo ≠ [])) := by
    intro T hf hr
    have hv : (dmaIn (cap T) (x T)).valid = ((x T).rok && !(cap T).fifo.isEmpty) := rfl
    by_cases h : (x T).sysEdge = true ∧ (x T).rok = true ∧ (x T).busReady = true ∧
        (cap T).fifo ≠ []
    · left
      obtain ⟨hs, hk, hb, hq⟩ := h
      have hval : (dmaIn (cap T) (x T)).valid = true := by
        rw [hv, hk]; simpa using hq
      have hwr : Dma.writes (cap T).dma (dmaIn (cap T) (x T)) = true := by
        unfold Dma.writes Dma.busValid
        rw [hf, hval]
        show (decide (Dma.Fsm.transferPixels = .transferPixels) && true && (x T).busReady) = true
        rw [hb]; rfl
      constructor
      · rw [dma_next, if_pos hs]
        show (if (cap T).dma.fsm = .waitSof then _ else if _ then _ else _) = _
        rw [if_neg (by rw [hf]; decide), if_pos hwr, hr,
          show m + 1 + 2 ^ aw - 1 = m + 2 ^ aw by omega, Nat.add_mod_right,
          Nat.mod_eq_of_lt (by omega)]
      · rw [fsm_next, if_pos hs, hf]
        simp only []
        rw [hval, hb, hr]
        by_cases hm0 : m = 0 <;> simp [hm0]
    · right
      have hnw : (x T).sysEdge = true →
          ((dmaIn (cap T) (x T)).valid && (x T).busReady) = false := by
        intro hs
        rw [Bool.eq_false_iff]
        intro hh
        rw [hv] at hh
        simp only [Bool.and_eq_true, Bool.not_eq_true', List.isEmpty_eq_false_iff] at hh
        exact h ⟨hs, hh.1.1, hh.2, hh.1.2⟩
      refine ⟨?_, ?_, ?_, h⟩
      · rw [fsm_next, hf]
        by_cases hs : (x T).sysEdge = true
        · rw [if_pos hs]
          simp only []
          rw [hnw hs]
          rfl
        · rw [if_neg hs]
      · rw [dma_next]
        by_cases hs : (x T).sysEdge = true
        · rw [if_pos hs]
          show (if (cap T).dma.fsm = .waitSof then _ else if _ then _ else _) = _
          rw [if_neg (by rw [hf]; decide), if_neg, hr]
          intro hw
          unfold Dma.writes Dma.busValid at hw
          rw [hf] at hw
          have h2 := hnw hs
          have h3 : (dmaIn (cap T) (x T)).busReady = (x T).busReady := rfl
          rw [h3] at hw
          simp only [decide_true, Bool.true_and] at hw
          rw [hw] at h2
          exact absurd h2 (by decide)
        · rw [if_neg hs]; exact hr
      · intro hq
        cases hq' : (cap T).fifo with
        | nil => exact absurd hq' hq
        | cons z post =>
          obtain ⟨pre', post', h1, -⟩ := AsyncFifo.step_mem depth [] post z
            (fifoIn E (cap T) (x T)) (fun _ => by
              show ((x T).rok && ((x T).sysEdge && Dma.frameReady (cap T).dma
                (dmaIn (cap T) (x T)))) = false
              have : Dma.frameReady (cap T).dma (dmaIn (cap T) (x T)) = (x T).busReady := by
                unfold Dma.frameReady; rw [hf]; rfl
              rw [this, Bool.eq_false_iff]
              intro hh
              simp only [Bool.and_eq_true] at hh
              exact h ⟨hh.2.1, hh.1, hh.2.2, hq⟩)
          rw [fifo_next, hq']
          rw [List.nil_append] at h1
          rw [h1]
          simp
  have hwait : ∀ n T, (cap T).dma.fsm = .transferPixels →
      (cap T).dma.mwords_remaining = m + 1 →
      (∃ u, T ≤ u ∧ (cap u).dma.mwords_remaining = m ∧
        (cap u).dma.fsm = if m = 0 then .eof else .transferPixels) ∨
      ((cap (T + n)).dma.fsm = .transferPixels ∧ (cap (T + n)).dma.mwords_remaining = m + 1 ∧
        ((cap T).fifo ≠ [] → (cap (T + n)).fifo ≠ [])) := by
    intro n T hf hr
    induction n with
    | zero => exact .inr ⟨hf, hr, id⟩
    | succ n ih =>
      rcases ih with h | ⟨h1, h2, h3⟩
      · exact .inl h
      · rcases hstep (T + n) h1 h2 with h | ⟨g1, g2, g3, -⟩
        · exact .inl ⟨T + n + 1, by omega, h⟩
        · exact .inr ⟨g1, g2, fun h => g3 (h3 h)⟩
  obtain ⟨u, hu, hp, ho⟩ := words T
  obtain ⟨h1, h2⟩ := hno (u + 1) u (by omega) (by omega) hp ho
  obtain ⟨q, hq⟩ := AsyncFifo.step_push depth (cap u).fifo (fifoIn E (cap u) (x u)) (by
    show ((x u).wok && decide ((cap u).fifo.length < depth) &&
      ((x u).pixEdge && offers E (cap u).frame)) = true
    simp [h1, h2, hp, ho])
  have hne : (cap (u + 1)).fifo ≠ [] := by rw [fifo_next, hq]; simp
  rcases hwait (u + 1 - T) T hf hr with h | ⟨g1, g2, -⟩
  · exact h
  rw [show T + (u + 1 - T) = u + 1 by omega] at g1 g2
  obtain ⟨v, hv, hvb⟩ := moves.bus (u + 1)
  rcases hwait (v - (u + 1)) (u + 1) g1 g2 with ⟨z, hz, h⟩ | ⟨k1, k2, k3⟩
  · exact ⟨z, by omega, h⟩
  rw [show u + 1 + (v - (u + 1)) = v by omega] at k1 k2 k3
  obtain ⟨hs, hk, hb⟩ := hvb.resolve_left (k3 hne)
  replace hb : (x v).busReady = true := by
    rcases hb with hb | hb
    · unfold Dma.frameReady at hb; rw [k1] at hb; exact hb
    · exact hb
  rcases hstep v k1 k2 with h | ⟨-, -, -, h⟩
  · exact ⟨v + 1, by omega, h⟩
  · exact absurd ⟨hs, hk, hb, k3 hne⟩ h

/-- A transfer in progress takes all its words. -/
theorem completes {T0 : Nat}
    (moves : Moves E depth nslots aw al x)
    (words : ∀ T, ∃ u, T ≤ u ∧ (x u).pixEdge = true ∧ offers E (cap u).frame = true)
    (hno : ∀ T, NoOverflow E depth nslots aw al x T0 T) (m : Nat) (hm : m + 1 < 2 ^ aw) :
    ∀ T, T0 ≤ T → (cap T).dma.fsm = .transferPixels → (cap T).dma.mwords_remaining = m + 1 →
    ∃ u, T ≤ u ∧ (cap u).dma.fsm = .eof := by
  induction m with
  | zero =>
    intro T hT h1 h2
    obtain ⟨u, hu, -, h⟩ := takes moves words hno 0 hm T hT h1 h2
    exact ⟨u, hu, h⟩
  | succ m ih =>
    intro T hT h1 h2
    obtain ⟨u, hu, h3, h4⟩ := takes moves words hno (m + 1) hm T hT h1 h2
    obtain ⟨v, hv, h⟩ := ih (by omega) u (by omega) h4 h3
    exact ⟨v, by omega, h⟩

/-- At the end of the transfer the slot is reported as done. -/
theorem reports (moves : Moves E depth nslots aw al x)
    (T : Nat) (hf : (cap T).dma.fsm = .eof) :
    ∃ e, T ≤ e ∧ ∃ k, Done E depth nslots aw al x e k := by
  obtain ⟨u, hu, hsw⟩ := moves.drained T
  obtain ⟨v, hv, ⟨hs, hw⟩, hno⟩ := first_of (p := fun u => (x u).sysEdge = true ∧
    ((x u).wdataValid = false ∨ Dma.writes (cap u).dma (dmaIn (cap u) (x u)) = true)) hu hsw
  have hstay : ∀ n, T + n ≤ v → (cap (T + n)).dma.fsm = .eof := by
    intro n
    induction n with
    | zero => exact fun _ => hf
    | succ n ih =>
      intro hn
      show (cap (T + n + 1)).dma.fsm = _
      rw [fsm_next, ih (by omega)]
      by_cases hs : (x (T + n)).sysEdge = true
      · rw [if_pos hs]
        simp only []
        rw [if_pos]
        rcases Bool.eq_false_or_eq_true (x (T + n)).wdataValid with h | h
        · exact h
        · exact absurd ⟨hs, .inl h⟩ (hno (T + n) (by omega) (by omega))
      · rw [if_neg hs]
  have := hstay (v - T) (by omega)
  rw [show T + (v - T) = v by omega] at this
  replace hw : (x v).wdataValid = false := by
    rcases hw with hw | hw
    · exact hw
    · simp [Dma.writes, Dma.busValid, this] at hw
  refine ⟨v, hv, _, hs, rfl, ?_⟩
  unfold Dma.addressDone
  rw [this]
  show (decide (Dma.Fsm.eof = .eof) && !(x v).wdataValid) = true
  rw [hw]; rfl

/-- A transfer will be done as long as some slot is LOADED. -/
theorem progress {T0 N : Nat} (own : SoftwareOwns E depth nslots aw al x T0)
    (hsize : ∀ t, T0 ≤ t → Dma.wordsOf aw al (x t).frame_size = N) (hN : 1 ≤ N)
    (moves : Moves E depth nslots aw al x)
    (sofs : ∀ T, ∃ u, T ≤ u ∧ (x u).pixEdge = true ∧ offers E (cap u).frame = true ∧
      (offered E (cap u).frame).1 = true)
    (hno : ∀ T, NoOverflow E depth nslots aw al x T0 T) (T : Nat) (hT : T0 ≤ T)
    (hw : (cap T).dma.fsm = .waitSof) (n : Nat) (hn : n < nslots)
    (hv : ((cap T).dma.slots n).valid = true) :
    ∃ e, T ≤ e ∧ ∃ k, Done E depth nslots aw al x e k := by
  have hNlt : N < 2 ^ aw := by
    rw [← hsize T0 (Nat.le_refl _)]; exact Dma.wordsOf_lt aw al _
  have hN' : N = (N - 1) + 1 := by omega
  obtain ⟨u1, h1, h2, h3⟩ := selects own hT
    moves.sys hw hn hv
  obtain ⟨u2, h4, h5, h6⟩ := begins' own hsize moves sofs hno u1 (by omega) h2 h3
  obtain ⟨u3, h7, h8⟩ := completes moves
    (fun T => by obtain ⟨u, h1, h2, h3, -⟩ := sofs T; exact ⟨u, h1, h2, h3⟩) hno (N - 1)
    (by omega) u2 (by omega) h5 (by rw [h6]; exact hN')
  obtain ⟨e, h9, k, hk⟩ := reports (E := E) (depth := depth) (nslots := nslots) (aw := aw)
    (al := al) moves u3 h8
  exact ⟨e, by omega, k, hk⟩

theorem current_lt (hn : 0 < nslots) (t : Nat) : (cap t).dma.current_slot < nslots := by
  induction t with
  | zero => exact hn
  | succ t ih =>
    rw [dma_next]
    by_cases hs : (x t).sysEdge = true
    · rw [if_pos hs]
      show (if _ then Dma.selectSlot nslots (cap t).dma else (cap t).dma.current_slot) < nslots
      split
      · unfold Dma.selectSlot
        cases hf : (List.range nslots).find? fun n => ((cap t).dma.slots n).valid with
        | none => exact ih
        | some m => exact List.mem_range.1 (List.mem_of_find?_eq_some hf)
      · exact ih
    · rw [if_neg hs]; exact ih

/-- Number of LOADED slots. -/
def loaded (nslots : Nat) (s : Dma.State) : Nat :=
  (List.range nslots).countP fun n => (s.slots n).valid

/-- If software loads nothing no slot becomes LOADED. -/
theorem valid_prev {T0 t n : Nat} (none : LoadsNone x T0) (ht : T0 ≤ t)
    (hv : ((cap (t + 1)).dma.slots n).valid = true) : ((cap t).dma.slots n).valid = true := by
  rw [dma_next] at hv
  by_cases hs : (x t).sysEdge = true
  · rw [if_pos hs] at hv
    have hv' : (((x t).sw n).status.getD (if Dma.addressDone (cap t).dma (dmaIn (cap t) (x t)) &&
        decide ((cap t).dma.current_slot = n) then 2#2 else ((cap t).dma.slots n).status)).getLsbD 0
        = true := hv
    cases hst : ((x t).sw n).status with
    | some v =>
      rw [hst, Option.getD_some, none t n v ht hs hst] at hv'
      exact absurd hv' (by decide)
    | none =>
      rw [hst, Option.getD_none] at hv'
      split at hv'
      · exact absurd hv' (by decide)
      · exact hv'
  · rw [if_neg hs] at hv; exact hv

theorem valid_back {T0 t : Nat} (none : LoadsNone x T0) (ht : T0 ≤ t) (m n : Nat)
    (hv : ((cap (t + m)).dma.slots n).valid = true) : ((cap t).dma.slots n).valid = true := by
  induction m with
  | zero => exact hv
  | succ m ih => exact ih (valid_prev none (by omega) hv)

theorem countP_lt {α : Type} {p q : α → Bool} {l : List α} {a : α} (h : ∀ b, q b = true → p b = true)
    (ha : a ∈ l) (hp : p a = true) (hq : q a = false) : l.countP q < l.countP p := by
  induction l with
  | nil => simp at ha
  | cons b l ih =>
    have hle : l.countP q ≤ l.countP p := List.countP_mono_left fun c _ => h c
    rw [List.countP_cons, List.countP_cons]
    rcases List.mem_cons.1 ha with rfl | ha
    · rw [hp, hq]
      simp only [Bool.false_eq_true, if_false, if_true]
      omega
    · have h1 := ih ha
      have h2 := h b
      cases hqb : q b with
      | false => simp only [Bool.false_eq_true, if_false]; split <;> omega
      | true => rw [h2 hqb]; simp only [if_true]; omega

/-- Each transfer leaves one LOADED slot less. -/
theorem done_loaded {T0 T e k : Nat} (own : SoftwareOwns E depth nslots aw al x T0)
    (none : LoadsNone x T0) (h0 : (cap T0).dma.fsm = .waitSof) (hT : T0 ≤ T) (he : T ≤ e)
    (hn : 0 < nslots) (hd : Done E depth nslots aw al x e k) :
    loaded nslots (cap (e + 1)).dma < loaded nslots (cap T).dma ∧
      (cap (e + 1)).dma.fsm = .waitSof := by
  have hdone := hd.2.2
  simp only [Dma.addressDone, Bool.and_eq_true, decide_eq_true_eq, Bool.not_eq_true'] at hdone
  have hvk : ((cap e).dma.slots k).valid = true := by
    have := busy_from own h0 e (by omega) (by rw [hdone.1]; decide)
    unfold Dma.addressValid at this
    rwa [hd.2.1] at this
  have hk : k < nslots := by
    rw [← hd.2.1]
    exact current_lt (E := E) (depth := depth) (aw := aw) (al := al) (x := x) hn e
  refine ⟨?_, ?_⟩
  · refine countP_lt (a := k) (fun b hb => ?_) (List.mem_range.2 hk) ?_ ?_
    · rw [show e + 1 = T + (e + 1 - T) by omega] at hb
      exact valid_back none hT _ b hb
    · rw [show e = T + (e - T) by omega] at hvk
      exact valid_back none hT _ k hvk
    · rw [dma_next, if_pos hd.1]
      show (((x e).sw k).status.getD (if Dma.addressDone (cap e).dma (dmaIn (cap e) (x e)) &&
        decide ((cap e).dma.current_slot = k) then 2#2 else ((cap e).dma.slots k).status)).getLsbD 0
        = false
      rw [own e k (by omega) hd.1 hvk, hd.2.2, hd.2.1]
      simp
  · rw [fsm_next, if_pos hd.1, hdone.1]
    simp only []
    have h2 : (x e).wdataValid = false := hdone.2
    rw [h2]
    rfl

/-- A LOADED slot stays so until its transfer is done. -/
theorem valid_from {T0 T n : Nat} (own : SoftwareOwns E depth nslots aw al x T0) (hT : T0 ≤ T)
    (hv : ((cap T).dma.slots n).valid = true) (m : Nat)
    (hd : ∀ t, T ≤ t → t < T + m → ¬ Done E depth nslots aw al x t n) :
    ((cap (T + m)).dma.slots n).valid = true := by
  induction m with
  | zero => exact hv
  | succ m ih =>
    exact valid_next (t := T + m) own (by omega) (ih fun t h1 h2 => hd t h1 (by omega))
      (hd (T + m) (by omega) (by omega))

/-- If software loads nothing more, every LOADED slot has its turn. -/
theorem progress_slot {T0 N : Nat} (own : SoftwareOwns E depth nslots aw al x T0)
    (none : LoadsNone x T0)
    (hsize : ∀ t, T0 ≤ t → Dma.wordsOf aw al (x t).frame_size = N) (hN : 1 ≤ N)
    (moves : Moves E depth nslots aw al x)
    (sofs : ∀ T, ∃ u, T ≤ u ∧ (x u).pixEdge = true ∧ offers E (cap u).frame = true ∧
      (offered E (cap u).frame).1 = true)
    (hw : (cap T0).dma.fsm = .waitSof) (k : Nat) (hk : k < nslots)
    (hv : ((cap T0).dma.slots k).valid = true)
    (hno : ∀ T, (∀ u, T0 ≤ u → u < T → ¬ Done E depth nslots aw al x u k) →
      NoOverflow E depth nslots aw al x T0 (T + 1)) :
    ∃ e, T0 ≤ e ∧ Done E depth nslots aw al x e k ∧
      ∀ u, T0 ≤ u → u < e → ¬ Done E depth nslots aw al x u k := by
  by_contra hcon
  have hnever : ∀ u, T0 ≤ u → ¬ Done E depth nslots aw al x u k := by
    intro u hu hd
    exact hcon (first_of (p := fun u => Done E depth nslots aw al x u k) hu hd)
  have hno' : ∀ T, NoOverflow E depth nslots aw al x T0 T := fun T t h1 h2 =>
    hno T (fun u h _ => hnever u h) t h1 (by omega)
  have key : ∀ c T, T0 ≤ T → (cap T).dma.fsm = .waitSof → loaded nslots (cap T).dma ≤ c →
      False := by
    intro c
    induction c with
    | zero =>
      intro T hT hf hc
      obtain ⟨e, he, j, hd⟩ := progress own hsize hN moves sofs hno' T hT hf k hk
        (by rw [show T = T0 + (T - T0) by omega]
            exact valid_from own (Nat.le_refl _) hv _ fun t h1 _ => hnever t h1)
      have := (done_loaded own none hw hT he (by omega) hd).1
      omega
    | succ c ih =>
      intro T hT hf hc
      obtain ⟨e, he, j, hd⟩ := progress own hsize hN moves sofs hno' T hT hf k hk
        (by rw [show T = T0 + (T - T0) by omega]
            exact valid_from own (Nat.le_refl _) hv _ fun t h1 _ => hnever t h1)
      obtain ⟨h1, h2⟩ := done_loaded own none hw hT he (by omega) hd
      exact ih (e + 1) (by omega) h2 (by omega)
  exact key _ T0 (Nat.le_refl _) hw (Nat.le_refl _)

/-- The first transfer that is done after slot `k` has been selected is that to slot `k`. -/
theorem selected_done {T0 T e j k : Nat} (own : SoftwareOwns E depth nslots aw al x T0)
    (hT : T0 ≤ T) (ha : Dma.addressValid (cap T).dma = true)
    (hc : (cap T).dma.current_slot = k) (he : T ≤ e) (hd : Done E depth nslots aw al x e j) :
    ∃ u, T ≤ u ∧ u ≤ e ∧ Done E depth nslots aw al x u k := by
  obtain ⟨u, hu, ⟨hue, i, hi⟩, hno⟩ := first_of
    (p := fun u => u ≤ e ∧ ∃ k, Done E depth nslots aw al x u k) he ⟨Nat.le_refl _, j, hd⟩
  have hstay : ∀ n, T + n ≤ u → (cap (T + n)).dma.current_slot = k ∧
      Dma.addressValid (cap (T + n)).dma = true := by
    intro n
    induction n with
    | zero => exact fun _ => ⟨hc, ha⟩
    | succ n ih =>
      intro hn
      obtain ⟨h1, h2⟩ := ih (by omega)
      have hnd : ¬ ∃ k, Done E depth nslots aw al x (T + n) k := fun h =>
        hno (T + n) (by omega) (by omega) ⟨by omega, h⟩
      exact ⟨(current_next (t := T + n) h2 hnd).trans h1,
        addressValid_next (t := T + n) own (by omega) h2 hnd⟩
  have := (hstay (u - T) (by omega)).1
  rw [show T + (u - T) = u by omega] at this
  exact ⟨u, hu, hue, hi.1, this, hi.2.2⟩

/-- With two slots, after one is done the other is selected if it is LOADED. -/
theorem other_selected {T0 e j k : Nat} (own : SoftwareOwns E depth 2 aw al x T0)
    (h0 : (capture E depth 2 aw al x T0).dma.fsm = .waitSof) (he : T0 ≤ e)
    (alive : ∀ T, ∃ u, T ≤ u ∧ (x u).sysEdge = true) (hk : k < 2) (hjk : j ≠ k)
    (hv : ((capture E depth 2 aw al x e).dma.slots k).valid = true)
    (hd : Done E depth 2 aw al x e j) :
    ∃ u, e < u ∧ (∀ v, e < v → v ≤ u → (capture E depth 2 aw al x v).dma.fsm = .waitSof) ∧
      Dma.addressValid (capture E depth 2 aw al x u).dma = true ∧
      (capture E depth 2 aw al x u).dma.current_slot = k := by
  have hj : j < 2 := by
    rw [← hd.2.1]
    exact current_lt (E := E) (depth := depth) (aw := aw) (al := al) (x := x) (by decide) e
  have hvj : ((capture E depth 2 aw al x e).dma.slots j).valid = true := by
    have hdone := hd.2.2
    simp only [Dma.addressDone, Bool.and_eq_true, decide_eq_true_eq] at hdone
    have := busy_from own h0 e he (by rw [hdone.1]; decide)
    unfold Dma.addressValid at this
    rwa [hd.2.1] at this
  have hw1 : (capture E depth 2 aw al x (e + 1)).dma.fsm = .waitSof := by
    have hdone := hd.2.2
    simp only [Dma.addressDone, Bool.and_eq_true, decide_eq_true_eq, Bool.not_eq_true'] at hdone
    rw [fsm_next, if_pos hd.1, hdone.1]
    simp only []
    have h2 : (x e).wdataValid = false := hdone.2
    rw [h2]
    rfl
  have hvk1 : ((capture E depth 2 aw al x (e + 1)).dma.slots k).valid = true :=
    valid_next own he hv fun h => hjk (hd.2.1.symm.trans h.2.1)
  have hvj1 : ((capture E depth 2 aw al x (e + 1)).dma.slots j).valid = false := by
    rw [dma_next, if_pos hd.1]
    show (((x e).sw j).status.getD (if Dma.addressDone (capture E depth 2 aw al x e).dma
      (dmaIn (capture E depth 2 aw al x e) (x e)) &&
      decide ((capture E depth 2 aw al x e).dma.current_slot = j) then 2#2
      else ((capture E depth 2 aw al x e).dma.slots j).status)).getLsbD 0 = false
    rw [own e j he hd.1 hvj, hd.2.2, hd.2.1]
    simp
  have hc1 : (capture E depth 2 aw al x (e + 1)).dma.current_slot = 0 := by
    have hsel : Dma.selectSlot 2 (capture E depth 2 aw al x e).dma = 0 := by
      have h00 : ((capture E depth 2 aw al x e).dma.slots 0).valid = true := by
        rcases Nat.lt_or_ge j 1 with h | h
        · rwa [show j = 0 by omega] at hvj
        · rwa [show k = 0 by omega] at hv
      simp [Dma.selectSlot, List.range, List.range.loop, h00]
    rw [dma_next, if_pos hd.1]
    show (if !Dma.addressValid _ || Dma.addressDone _ _ then _ else _) = 0
    rw [hd.2.2, Bool.or_true, if_pos rfl, hsel]
  rcases Nat.lt_or_ge k 1 with h | h
  · have hk0 : k = 0 := by omega
    refine ⟨e + 1, by omega, fun v h1 h2 => by rw [show v = e + 1 by omega]; exact hw1, ?_, ?_⟩
    · unfold Dma.addressValid
      rw [hc1, ← hk0]; exact hvk1
    · rw [hc1, hk0]
  · have hk1 : k = 1 := by omega
    have hj0 : j = 0 := by omega
    subst hk1 hj0
    obtain ⟨u0, hu0, hs0⟩ := alive (e + 1)
    obtain ⟨u, hu, hs, hno⟩ := first_of (p := fun u => (x u).sysEdge = true) hu0 hs0
    have hstill : ∀ v, e + 1 ≤ v → v ≤ u →
        (capture E depth 2 aw al x v).dma = (capture E depth 2 aw al x (e + 1)).dma :=
      fun v h1 h2 => dma_still h1 fun z h3 h4 => hno z h3 (by omega)
    have hdu := hstill u hu (Nat.le_refl _)
    have hau : Dma.addressValid (capture E depth 2 aw al x u).dma = false := by
      unfold Dma.addressValid
      rw [hdu, hc1]; exact hvj1
    have hwu : (capture E depth 2 aw al x (u + 1)).dma.fsm = .waitSof := by
      rw [fsm_next, if_pos hs, hdu, hw1]
      simp only []
      rw [← hdu, hau]
      rfl
    have hcu : (capture E depth 2 aw al x (u + 1)).dma.current_slot = 1 := by
      rw [dma_next, if_pos hs]
      show (if !Dma.addressValid _ || Dma.addressDone _ _ then _ else _) = 1
      rw [hau]
      simp only [Bool.not_false, Bool.true_or, if_true]
      rw [hdu]
      simp [Dma.selectSlot, List.range, List.range.loop, List.find?, hvj1, hvk1]
    refine ⟨u + 1, by omega, fun v h1 h2 => ?_, ?_, hcu⟩
    · rcases Nat.lt_or_eq_of_le h2 with h | rfl
      · rw [hstill v (by omega) (by omega)]; exact hw1
      · exact hwu
    · unfold Dma.addressValid
      rw [hcu]
      refine valid_next own (by omega) (by rw [hdu]; exact hvk1) fun h => ?_
      have := h.2.2
      rw [hdu] at this
      simp [Dma.addressDone, hw1] at this

/-- Two slots: a LOADED slot waits for at most one transfer to the other. -/
theorem progress_two {T0 N : Nat} (own : SoftwareOwns E depth 2 aw al x T0)
    (hsize : ∀ t, T0 ≤ t → Dma.wordsOf aw al (x t).frame_size = N) (hN : 1 ≤ N)
    (moves : Moves E depth 2 aw al x)
    (sofs : ∀ T, ∃ u, T ≤ u ∧ (x u).pixEdge = true ∧
      offers E (capture E depth 2 aw al x u).frame = true ∧
      (offered E (capture E depth 2 aw al x u).frame).1 = true)
    (hw : (capture E depth 2 aw al x T0).dma.fsm = .waitSof) (k : Nat) (hk : k < 2)
    (hv : ((capture E depth 2 aw al x T0).dma.slots k).valid = true)
    (hno : ∀ T, (∀ u, T0 ≤ u → u < T → ¬ Done E depth 2 aw al x u k) →
      NoOverflow E depth 2 aw al x T0 (T + 1)) :
    ∃ e, T0 ≤ e ∧ Done E depth 2 aw al x e k ∧
      (∀ u, T0 ≤ u → u < e → ¬ Done E depth 2 aw al x u k) ∧
      ∀ u v i j, T0 ≤ u → u < e → T0 ≤ v → v < e → Done E depth 2 aw al x u i →
        Done E depth 2 aw al x v j → u = v := by
  have hsys : ∀ T, ∃ u, T ≤ u ∧ (x u).sysEdge = true := fun T => by
    exact moves.sys T
  have hex : ∃ e, T0 ≤ e ∧ Done E depth 2 aw al x e k := by
    by_contra hcon
    have hnever : ∀ u, T0 ≤ u → ¬ Done E depth 2 aw al x u k := fun u hu hd => hcon ⟨u, hu, hd⟩
    have hno' : ∀ T, NoOverflow E depth 2 aw al x T0 T := fun T t h1 h2 =>
      hno T (fun u h _ => hnever u h) t h1 (by omega)
    obtain ⟨e, he, j, hd⟩ := progress own hsize hN moves sofs hno' T0
      (Nat.le_refl _) hw k hk hv
    have hjk : j ≠ k := fun h => hnever e he (h ▸ hd)
    have hve : ((capture E depth 2 aw al x e).dma.slots k).valid = true := by
      rw [show e = T0 + (e - T0) by omega]
      exact valid_from own (Nat.le_refl _) hv _ fun t h1 _ => hnever t h1
    obtain ⟨u, hu, hwu, hau, hcu⟩ := other_selected own hw he hsys hk hjk hve hd
    have hvu : ((capture E depth 2 aw al x u).dma.slots k).valid = true := by
      unfold Dma.addressValid at hau
      rwa [hcu] at hau
    obtain ⟨e', he', j', hd'⟩ := progress own hsize hN moves sofs hno' u
      (by omega) (hwu u hu (Nat.le_refl _)) k hk hvu
    obtain ⟨z, hz, -, hdz⟩ := selected_done own (by omega) hau hcu he' hd'
    exact hnever z (by omega) hdz
  obtain ⟨e0, he0, hd0⟩ := hex
  obtain ⟨e, he, hd, hfirst⟩ := first_of (p := fun u => Done E depth 2 aw al x u k) he0 hd0
  refine ⟨e, he, hd, hfirst, ?_⟩
  have key : ∀ u v i j, T0 ≤ u → u < e → v < e → Done E depth 2 aw al x u i →
      Done E depth 2 aw al x v j → ¬ u < v := by
    intro u v i j hu hue hve hdu hdv huv
    have hik : i ≠ k := fun h => hfirst u hu hue (h ▸ hdu)
    have hvk : ((capture E depth 2 aw al x u).dma.slots k).valid = true := by
      rw [show u = T0 + (u - T0) by omega]
      exact valid_from own (Nat.le_refl _) hv _ fun t h1 h2 => hfirst t h1 (by omega)
    obtain ⟨z, hz, hwz, haz, hcz⟩ := other_selected own hw hu hsys hk hik hvk hdu
    have hzv : z ≤ v := by
      rcases Nat.lt_or_ge v z with h | h
      · have h1 := hwz v huv (by omega)
        have h2 := hdv.2.2
        simp [Dma.addressDone, h1] at h2
      · exact h
    obtain ⟨y, hy, hyv, hdy⟩ := selected_done own (by omega) haz hcz hzv hdv
    exact hfirst y (by omega) (by omega) hdy
  intro u v i j hu hue hv hve hdu hdv
  rcases Nat.lt_trichotomy u v with h | h | h
  · exact absurd h (key u v i j hu hue hve hdu hdv)
  · exact h
  · exact absurd h (key v u j i hv hve hue hdv hdu)

/-- Start-of-frame words come at instants if they come at pixel clocks. -/
theorem sofs_at {V : Nat → Frame.In} (hV : Video x V) (pix : ∀ T, ∃ u, T ≤ u ∧ (x u).pixEdge = true)
    (h : ∀ c, ∃ u, c ≤ u ∧ offers E (extract E V u) = true ∧
      (offered E (extract E V u)).1 = true) (T : Nat) :
    ∃ u, T ≤ u ∧ (x u).pixEdge = true ∧ offers E (cap u).frame = true ∧
      (offered E (cap u).frame).1 = true := by
  obtain ⟨c, hc, h1, h2⟩ := h (ticks (fun u => (x u).pixEdge) T)
  have hgrow : ∀ c, ∃ t, c < ticks (fun u => (x u).pixEdge) t := by
    intro c
    induction c with
    | zero =>
      obtain ⟨u, -, hu⟩ := pix 0
      exact ⟨u + 1, by rw [ticks_succ, if_pos hu]; omega⟩
    | succ c ih =>
      obtain ⟨t, ht⟩ := ih
      obtain ⟨u, h1, hu⟩ := pix t
      have := ticks_mono (fun u => (x u).pixEdge) h1
      exact ⟨u + 1, by rw [ticks_succ, if_pos hu]; omega⟩
  obtain ⟨t, ht⟩ := hgrow c
  obtain ⟨u, -, hp, hu⟩ := tick_at _ t c ht
  have hTu : T ≤ u := by
    rcases Nat.lt_or_ge u T with h | h
    · have := ticks_lt (fun u => (x u).pixEdge) hp h; omega
    · exact h
  refine ⟨u, hTu, hp, ?_, ?_⟩
  · rw [frame_at hV u, hu]; exact h1
  · rw [frame_at hV u, hu]; exact h2

end Lemmas

end Verif.Capture
