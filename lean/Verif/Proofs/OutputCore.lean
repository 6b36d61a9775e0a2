import Verif.Proofs.Output

/-!
# Lemmas about the DMA reader and the assembled output core
-/

namespace Verif.Output

open Spec.Output Spec.Stream

namespace DmaReader

theorem words_lt (aw shift x : Nat) : words aw shift x < 2 ^ aw :=
  Nat.mod_lt _ (Nat.two_pow_pos _)

theorem atEnd_iff (aw shift : Nat) (s : State) (p : Params) (hL : 0 < words aw shift p.length) :
    atEnd aw shift s p = decide (s.offset + 1 = words aw shift p.length) := by
  have h := words_lt aw shift p.length
  unfold atEnd
  rw [show words aw shift p.length + 2 ^ aw - 1 = (words aw shift p.length - 1) + 2 ^ aw by omega,
    Nat.add_mod_right, Nat.mod_eq_of_lt (by omega), decide_eq_decide]
  omega

/-- `q` requests have been accepted. -/
def Progress (L q : Nat) (s : State) : Prop :=
  (s.fsm = .read ∧ s.offset = q % L) ∨ (s.fsm = .idle ∧ q % L = 0)

theorem Progress.step {aw shift q : Nat} {s : State} {p : Params} {ready : Bool}
    (hL : 0 < words aw shift p.length) (h : Progress (words aw shift p.length) q s) :
    Progress (words aw shift p.length) (q + (if requests s && ready then 1 else 0))
      (step aw shift s true p ready) := by
  have hlt := words_lt aw shift p.length
  rcases h with ⟨h1, h2⟩ | ⟨h1, h2⟩
  · have hm := divmod_succ q _ hL
    have hml := Nat.mod_lt q hL
    cases ready
    · simp [DmaReader.step, h1, Progress, h2]
    · simp only [requests, h1, decide_true, Bool.and_true, if_true, DmaReader.step]
      rw [atEnd_iff aw shift s p hL, h2]
      by_cases he : q % words aw shift p.length + 1 = words aw shift p.length
      · right
        exact ⟨by simp [he], (hm.2 he).1⟩
      · left
        refine ⟨by simp [he], ?_⟩
        simp only
        rw [Nat.mod_eq_of_lt (by omega), (hm.1 (by omega)).1]
  · left
    simp only [requests, h1, DmaReader.step]
    simp [h2]

end DmaReader

namespace Core

/-- The address of the `j`-th request. -/
def addr (cfg : Config) (p : Params) (j : Nat) : Nat :=
  (DmaReader.words cfg.aw cfg.shift p.base + j % DmaReader.words cfg.aw cfg.shift p.length)
    % 2 ^ cfg.aw

/-- Words `c, c+1, ...` are waiting, followed by the outstanding addresses up to `q`. -/
structure Queue (cfg : Config) (p : Params) (mem : Nat → Nat) (c q : Nat)
    (fifo pending : List Nat) : Prop where
  waiting : fifo = (List.range' c fifo.length).map fun j => mem (addr cfg p j)
  asked : pending = (List.range' (c + fifo.length) pending.length).map (addr cfg p)
  total : q = c + fifo.length + pending.length

variable {cfg : Config} {p : Params} {mem : Nat → Nat} {c q : Nat} {fifo pending : List Nat}

theorem Queue.pop (h : Queue cfg p mem c q fifo pending) (hne : fifo ≠ []) :
    Queue cfg p mem (c + 1) q fifo.tail pending := by
  obtain ⟨h1, h2, h3⟩ := h
  cases fifo with
  | nil => exact absurd rfl hne
  | cons x xs =>
    simp only [List.length_cons, List.range'_succ, List.map_cons, List.cons.injEq] at h1
    refine ⟨h1.2, ?_, ?_⟩
    · simp only [List.tail_cons]
      rw [List.length_cons] at h2
      rw [show c + 1 + xs.length = c + (xs.length + 1) by omega]
      exact h2
    · simp only [List.tail_cons, List.length_cons] at *; omega

theorem Queue.head (h : Queue cfg p mem c q fifo pending) (hne : fifo ≠ []) :
    fifo.headD 0 = mem (addr cfg p c) := by
  obtain ⟨h1, h2, h3⟩ := h
  cases fifo with
  | nil => exact absurd rfl hne
  | cons x xs =>
    simp only [List.length_cons, List.range'_succ, List.map_cons, List.cons.injEq] at h1
    exact h1.1

theorem Queue.answer (h : Queue cfg p mem c q fifo pending) :
    Queue cfg p mem c q (fifo ++ (pending.head?.map mem).toList) pending.tail := by
  obtain ⟨h1, h2, h3⟩ := h
  cases pending with
  | nil => simpa using ⟨h1, h2, h3⟩
  | cons x xs =>
    simp only [List.length_cons, List.range'_succ, List.map_cons, List.cons.injEq] at h2
    simp only [List.head?_cons, Option.map_some, Option.toList_some, List.tail_cons]
    refine ⟨?_, ?_, ?_⟩
    · rw [List.length_append, List.length_singleton, List.range'_concat, List.map_append]
      rw [← h1, h2.1]
      simp
    · rw [List.length_append, List.length_singleton, ← Nat.add_assoc]
      exact h2.2
    · simp only [List.length_append, List.length_cons, List.length_nil] at *; omega

theorem Queue.accept (h : Queue cfg p mem c q fifo pending) :
    Queue cfg p mem c (q + 1) fifo (pending ++ [addr cfg p q]) := by
  obtain ⟨h1, h2, h3⟩ := h
  refine ⟨h1, ?_, ?_⟩
  · rw [List.length_append, List.length_singleton, List.range'_concat, List.map_append, ← h2]
    simp [h3]
  · simp only [List.length_append, List.length_cons, List.length_nil]; omega

/-- The DMA side when `c` words have been consumed. -/
def DmaInv (cfg : Config) (p : Params) (mem : Nat → Nat) (c : Nat) (s : State) : Prop :=
  ∃ q, Queue cfg p mem c q s.fifo s.pending ∧
    DmaReader.Progress (DmaReader.words cfg.aw cfg.shift p.length) q s.reader

/-- A word is consumed. -/
def consumes (s : State) (i : In) : Bool := valid s i && i.ready && de s i

theorem address_eq (cfg : Config) (p : Params) (q : Nat) (s : DmaReader.State)
    (h : DmaReader.Progress (DmaReader.words cfg.aw cfg.shift p.length) q s)
    (hr : DmaReader.requests s = true) :
    DmaReader.address cfg.aw cfg.shift s p = addr cfg p q := by
  rcases h with ⟨h1, h2⟩ | ⟨h1, h2⟩
  · simp [DmaReader.address, addr, h2]
  · simp [DmaReader.requests, h1] at hr

theorem DmaInv.step {s : State} {i : In} (hraw : cfg.raw = false)
    (hL : 0 < DmaReader.words cfg.aw cfg.shift p.length)
    (hp : i.p = p) (hv : i.pvalid = true) (hm : i.mem = mem) (h : DmaInv cfg p mem c s) :
    DmaInv cfg p mem (c + (if consumes s i then 1 else 0)) (step cfg s i) := by
  obtain ⟨q, hq, hr⟩ := h
  have hpop : (dataReady cfg s i && !s.fifo.isEmpty) = consumes s i := by
    simp only [dataReady, consumes, hv, hraw, Bool.or_false, Bool.not_true, Bool.false_or]
    cases hd : de s i
    · simp
    · cases hi : i.ready
      · simp
      · simp only [Bool.and_true, valid, hv, hd]
        cases s.fifo.isEmpty <;> rfl
  refine ⟨q + (if DmaReader.requests s.reader && dmaReady cfg s i then 1 else 0), ?_, ?_⟩
  · -- pop
    have q1 : Queue cfg p mem (c + (if consumes s i then 1 else 0)) q
        (if consumes s i then s.fifo.tail else s.fifo) s.pending := by
      cases hc : consumes s i
      · simpa using hq
      · have hne : s.fifo ≠ [] := by
          rw [hc] at hpop
          rw [Bool.and_eq_true] at hpop
          simpa using hpop.2
        simpa using hq.pop hne
    -- answer
    have q2 : Queue cfg p mem (c + (if consumes s i then 1 else 0)) q
        (if i.answer then (if consumes s i then s.fifo.tail else s.fifo) ++
          (s.pending.head?.map i.mem).toList else (if consumes s i then s.fifo.tail else s.fifo))
        (if i.answer then s.pending.tail else s.pending) := by
      cases i.answer
      · exact q1
      · rw [hm]; exact q1.answer
    simp only [Core.step, hpop]
    by_cases ha : (DmaReader.requests s.reader && dmaReady cfg s i) = true
    · rw [if_pos ha, if_pos ha, hp, address_eq cfg p q s.reader hr (by
        rw [Bool.and_eq_true] at ha; exact ha.1)]
      exact q2.accept
    · rw [if_neg ha, if_neg ha]
      exact q2
  · simp only [Core.step, hv, hp]
    exact hr.step hL

theorem DmaInv.reset : DmaInv cfg p mem 0 Core.reset :=
  ⟨0, ⟨rfl, rfl, rfl⟩, Or.inr ⟨rfl, Nat.zero_mod _⟩⟩

/-- The timing generator inside the core is the timing generator alone. -/
theorem timing_eq (cfg : Config) (i : Nat → In) (t : Nat) :
    (trace (step cfg) Core.reset i t).timing =
      trace Timing.step Timing.reset (fun u => ⟨(i u).pvalid, (i u).p,
        timingReady (trace (step cfg) Core.reset i u) (i u)⟩) t := by
  induction t with
  | zero => rfl
  | succ t ih => rw [trace_succ, trace_succ, ← ih]; rfl

/-- Main invariant with constant parameters and memory. -/
theorem core_inv (cfg : Config) (p : Params) (hp : ValidMode p) (hraw : cfg.raw = false)
    (hL : 0 < DmaReader.words cfg.aw cfg.shift p.length) (mem : Nat → Nat) (i : Nat → In)
    (hi : ∀ t, (i t).pvalid = true ∧ (i t).p = p ∧ (i t).mem = mem) (t : Nat) :
    DmaInv cfg p mem (activeBefore p (beats cfg i t - 1)) (trace (step cfg) Core.reset i t) ∧
    (beats cfg i t = 0 → (trace (step cfg) Core.reset i t).timing = Timing.reset) ∧
    (∀ n, beats cfg i t = n + 1 →
      Timing.At p n (trace (step cfg) Core.reset i t).timing ∧
      Timing.SyncAt p n (trace (step cfg) Core.reset i t).timing) := by
  have htr : ∀ u, timingReady (trace (step cfg) Core.reset i u) (i u) =
      (valid (trace (step cfg) Core.reset i u) (i u) && (i u).ready) := by
    intro u; simp [timingReady, (hi u).1]
  have hb : ∀ u, beats cfg i u = countIn (fun u =>
      ((⟨(i u).pvalid, (i u).p, timingReady (trace (step cfg) Core.reset i u) (i u)⟩ :
        Timing.In)).ready) 0 u := by
    intro u
    unfold beats
    exact countIn_congr _ _ _ _ _ (fun k _ => by simp only [htr])
  have htm : ∀ u, (beats cfg i u = 0 →
        (trace (step cfg) Core.reset i u).timing = Timing.reset) ∧
      (∀ n, beats cfg i u = n + 1 →
        Timing.At p n (trace (step cfg) Core.reset i u).timing ∧
        Timing.SyncAt p n (trace (step cfg) Core.reset i u).timing) := by
    intro u
    have h := Timing.trace_at p hp Timing.reset rfl rfl (fun u => ⟨(i u).pvalid, (i u).p,
        timingReady (trace (step cfg) Core.reset i u) (i u)⟩)
        (fun u => ⟨(hi u).1, (hi u).2.1⟩) u
    rw [timing_eq, hb]
    exact ⟨h.1, fun n hn => ⟨(h.2 n hn).1, (h.2 n hn).2.2 rfl rfl⟩⟩
  refine ⟨?_, (htm t).1, (htm t).2⟩
  induction t with
  | zero => exact DmaInv.reset
  | succ t ih =>
    have h := ih.step hraw hL (hi t).2.1 (hi t).1 (hi t).2.2
    rw [trace_succ]
    have e : activeBefore p (beats cfg i (t + 1) - 1) = activeBefore p (beats cfg i t - 1) +
        (if consumes (trace (step cfg) Core.reset i t) (i t) then 1 else 0) := by
      have hbs : beats cfg i (t + 1) = beats cfg i t +
          (if valid (trace (step cfg) Core.reset i t) (i t) && (i t).ready then 1 else 0) := by
        simp [beats, countIn]
      cases hf : valid (trace (step cfg) Core.reset i t) (i t) && (i t).ready
      · rw [hbs, hf]; simp [consumes, hf]
      · rw [hbs, hf]
        simp only [if_true, consumes, hf, Bool.true_and]
        have hde : de (trace (step cfg) Core.reset i t) (i t) =
            ((trace (step cfg) Core.reset i t).timing.hactive &&
             (trace (step cfg) Core.reset i t).timing.vactive) := by
          simp [de, Timing.de, (hi t).1]
        cases hk : beats cfg i t with
        | zero =>
          rw [hde, (htm t).1 hk]; simp [Timing.reset, activeBefore]
        | succ n =>
          obtain ⟨a, -⟩ := (htm t).2 n hk
          rw [hde, a.hactive, a.vactive]
          have : activeBefore p (n + 1) = activeBefore p n + (if isActive p n then 1 else 0) := by
            simp [activeBefore, countIn]
          simp only [Nat.add_sub_cancel, this]
          rfl
    rw [e]
    exact h

/-- A property kept by every clock from `t` on holds from `t` on. -/
theorem persists (P : Nat → Prop) (t : Nat) (h0 : P t) (hs : ∀ u, t ≤ u → P u → P (u + 1)) :
    ∀ u, t ≤ u → P u := by
  intro u hu
  obtain ⟨k, rfl⟩ := Nat.exists_eq_add_of_le hu
  induction k with
  | zero => exact h0
  | succ k ih => exact hs _ (Nat.le_add_right _ _) (ih (Nat.le_add_right _ _))

/-- With a live memory and a live sink a beat is transferred again and again. -/
theorem fires_again (cfg : Config) (hd : 0 < cfg.depth) (i : Nat → In)
    (hi : ∀ t, (i t).pvalid = true)
    (hready : ∀ t, ∃ u, t ≤ u ∧ (i u).ready = true)
    (hmem : ∀ t, ∃ u, t ≤ u ∧ (i u).memReady = true)
    (hans : ∀ t, ∃ u, t ≤ u ∧ (i u).answer = true) (t : Nat)
    (hfsm : (trace (step cfg) Core.reset i t).reader.fsm ≠ .waitSof) :
    ∃ u, t ≤ u ∧ (valid (trace (step cfg) Core.reset i u) (i u) && (i u).ready) = true := by
  apply Classical.byContradiction
  intro hno
  have hnf : ∀ u, t ≤ u →
      (valid (trace (step cfg) Core.reset i u) (i u) && (i u).ready) = false := by
    intro u hu
    cases hh : (valid (trace (step cfg) Core.reset i u) (i u) && (i u).ready)
    · rfl
    · exact absurd ⟨u, hu, hh⟩ hno
  have hpop : ∀ u, t ≤ u → dataReady cfg (trace (step cfg) Core.reset i u) (i u) = false := by
    intro u hu
    simp [dataReady, hi u, hnf u hu]
  -- an empty FIFO forever
  have hempty : ∀ u, t ≤ u → (trace (step cfg) Core.reset i u).fifo = [] := by
    intro u hu
    apply Classical.byContradiction
    intro hne
    have hp := persists (fun v => (trace (step cfg) Core.reset i v).fifo ≠ []) u hne (by
      intro v hv hvne
      rw [trace_succ]
      simp only [step, hpop v (by omega), Bool.false_and, Bool.false_eq_true, if_false]
      split
      · simp [hvne]
      · exact hvne)
    obtain ⟨v, hv, hr⟩ := hready u
    have h1 := hp v hv
    have h2 := hnf v (by omega)
    rw [hr, Bool.and_true] at h2
    simp [valid, hi v, h1] at h2
  have hpend : ∀ u, t ≤ u → (trace (step cfg) Core.reset i u).pending = [] := by
    intro u hu
    apply Classical.byContradiction
    intro hne
    have hans0 : ∀ v, t ≤ v → (i v).answer = true →
        (trace (step cfg) Core.reset i v).pending = [] := by
      intro v hv ha
      have h1 := hempty (v + 1) (by omega)
      rw [trace_succ] at h1
      simp only [step, ha, if_true, List.append_eq_nil_iff] at h1
      cases hq : (trace (step cfg) Core.reset i v).pending with
      | nil => rfl
      | cons x xs => rw [hq] at h1; simp at h1
    have hp := persists (fun v => (trace (step cfg) Core.reset i v).pending ≠ []) u hne (by
      intro v hv hvne
      have hna : (i v).answer = false := by
        cases ha : (i v).answer
        · rfl
        · exact absurd (hans0 v (by omega) ha) hvne
      rw [trace_succ]
      simp only [step, hna, Bool.false_eq_true, if_false]
      split
      · simp
      · exact hvne)
    obtain ⟨v, hv, ha⟩ := hans u
    exact hp v hv (hans0 v (by omega) ha)
  have hread : ∀ u, t ≤ u → (trace (step cfg) Core.reset i u).reader.fsm ≠ .read := by
    intro u hu hrd
    have hm0 : ∀ v, t ≤ v → (i v).memReady = true →
        (trace (step cfg) Core.reset i v).reader.fsm ≠ .read := by
      intro v hv hm hr
      have h1 := hpend (v + 1) (by omega)
      rw [trace_succ] at h1
      simp [step, DmaReader.requests, hr, dmaReady, hm, hempty v hv, hpend v hv, hd] at h1
    have hp := persists (fun v => (trace (step cfg) Core.reset i v).reader.fsm = .read) u hrd (by
      intro v hv hvr
      have hm : (i v).memReady = false := by
        cases hm : (i v).memReady
        · rfl
        · exact absurd hvr (hm0 v (by omega) hm)
      rw [trace_succ]
      simp [step, DmaReader.step, hvr, dmaReady, hm])
    obtain ⟨v, hv, hm⟩ := hmem u
    exact hm0 v (by omega) hm (hp v hv)
  have h0 := hread t (by omega)
  have h1 := hread (t + 1) (by omega)
  rw [trace_succ] at h1
  cases hf : (trace (step cfg) Core.reset i t).reader.fsm with
  | idle => simp [step, DmaReader.step, hf, hi t] at h1
  | read => exact h0 hf
  | waitSof => exact hfsm hf

end Core
end Verif.Output

namespace Verif.Output.DmaReader

open Spec.Output Spec.Stream

theorem take_bufferAddresses (aw shift : Nat) (p : Params) (m : Nat)
    (hm : m < words aw shift p.length) :
    (bufferAddresses aw shift p).take m ++ [(words aw shift p.base + m) % 2 ^ aw] =
      (bufferAddresses aw shift p).take (m + 1) := by
  have hlen : (bufferAddresses aw shift p).length = words aw shift p.length := by
    simp [bufferAddresses, words]
  have e : (words aw shift p.base + m) % 2 ^ aw =
      (bufferAddresses aw shift p)[m]'(by omega) := by
    simp [bufferAddresses, words]
  rw [e]
  simp

theorem run_reads (aw shift : Nat) (P : Nat → Params)
    (hL : ∀ f, 0 < words aw shift (P f).length) (i : Nat → In)
    (hp : ∀ t, (i t).p = P (pops aw shift i t)) (t : Nat) :
    ∃ m, m < words aw shift (P (pops aw shift i t)).length ∧
      reads aw shift i t =
        ((List.range (pops aw shift i t)).map fun f => bufferAddresses aw shift (P f)).flatten
        ++ (bufferAddresses aw shift (P (pops aw shift i t))).take m ∧
      (((run aw shift i t).fsm = .read ∧ (run aw shift i t).offset = m) ∨
       ((run aw shift i t).fsm = .idle ∧ m = 0)) := by
  induction t with
  | zero => exact ⟨0, hL _, rfl, Or.inr ⟨rfl, rfl⟩⟩
  | succ t ih =>
    obtain ⟨m, h1, h2, h3⟩ := ih
    have hrun : run aw shift i (t + 1) =
        step aw shift (run aw shift i t) (i t).valid (i t).p (i t).ready := rfl
    have hps : pops aw shift i (t + 1) = pops aw shift i t +
        (if sinkReady aw shift (run aw shift i t) (i t).p (i t).ready then 1 else 0) := by
      simp [pops, countIn]
    have hrs : reads aw shift i (t + 1) = reads aw shift i t ++
        (if requests (run aw shift i t) && (i t).ready then
          [address aw shift (run aw shift i t) (i t).p] else []) := rfl
    have hlt := words_lt aw shift (P (pops aw shift i t)).length
    rcases h3 with ⟨h4, h5⟩ | ⟨h4, h5⟩
    · cases hr : (i t).ready
      · have e1 : pops aw shift i (t + 1) = pops aw shift i t := by
          rw [hps]; simp [sinkReady, hr]
        have e2 : reads aw shift i (t + 1) = reads aw shift i t := by
          rw [hrs]; simp [hr]
        have e3 : run aw shift i (t + 1) = run aw shift i t := by
          rw [hrun]; simp [step, h4, hr]
        rw [e1, e2, e3]
        exact ⟨m, h1, h2, Or.inl ⟨h4, h5⟩⟩
      · have hend := atEnd_iff aw shift (run aw shift i t) (P (pops aw shift i t)) (hL _)
        rw [h5] at hend
        have e2 : reads aw shift i (t + 1) = reads aw shift i t ++
            [(words aw shift (P (pops aw shift i t)).base + m) % 2 ^ aw] := by
          rw [hrs]; simp [requests, h4, hr, address, hp t, h5]
        rw [e2, h2, List.append_assoc, take_bufferAddresses aw shift _ m h1]
        by_cases he : m + 1 = words aw shift (P (pops aw shift i t)).length
        · have e1 : pops aw shift i (t + 1) = pops aw shift i t + 1 := by
            rw [hps]; simp [sinkReady, requests, h4, hr, hp t, hend, he]
          rw [e1]
          refine ⟨0, hL _, ?_, Or.inr ⟨?_, rfl⟩⟩
          · rw [List.range_succ, List.map_append, List.flatten_append]
            rw [List.take_of_length_le (by
              rw [he]; simp [bufferAddresses, words])]
            simp
          · rw [hrun]; simp [step, h4, hr, hp t, hend, he]
        · have e1 : pops aw shift i (t + 1) = pops aw shift i t := by
            rw [hps]; simp [sinkReady, requests, h4, hr, hp t, hend, he]
          rw [e1]
          refine ⟨m + 1, by omega, rfl, Or.inl ⟨?_, ?_⟩⟩
          · rw [hrun]; simp [step, h4, hr, hp t, hend, he]
          · rw [hrun]; simp only [step, h4, hr, if_true, h5]
            exact Nat.mod_eq_of_lt (by omega)
    · have e1 : pops aw shift i (t + 1) = pops aw shift i t := by
        rw [hps]; simp [sinkReady, requests, h4]
      have e2 : reads aw shift i (t + 1) = reads aw shift i t := by
        rw [hrs]; simp [requests, h4]
      rw [e1, e2]
      refine ⟨m, h1, h2, ?_⟩
      rw [hrun]
      cases hv : (i t).valid
      · right; simp [step, h4, h5]
      · left; simp [step, h4, h5]

end Verif.Output.DmaReader
