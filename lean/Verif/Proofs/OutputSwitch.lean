import Verif.Proofs.OutputCore

/-!
# Lemmas about switching the frame buffer base
-/

namespace Verif.Output.Core

open Spec.Output Spec.Stream

/-- Every element of `l`, numbered from `c`, satisfies `Pr`. -/
def AllFrom (Pr : Nat → Nat → Prop) (c : Nat) (l : List Nat) : Prop :=
  ∀ k x, l[k]? = some x → Pr (c + k) x

theorem AllFrom.tail {Pr : Nat → Nat → Prop} {c : Nat} {l : List Nat} (h : AllFrom Pr c l) :
    AllFrom Pr (c + 1) l.tail := by
  intro k x hk
  have := h (k + 1) x (by rw [List.getElem?_tail] at hk; exact hk)
  rw [show c + 1 + k = c + (k + 1) by omega]
  exact this

theorem AllFrom.append {Pr : Nat → Nat → Prop} {c : Nat} {l : List Nat} (h : AllFrom Pr c l)
    {x : Nat} (hx : Pr (c + l.length) x) : AllFrom Pr c (l ++ [x]) := by
  intro k y hk
  rw [List.getElem?_append] at hk
  split at hk
  · exact h k y hk
  · have hlt := (List.getElem?_eq_some_iff.1 hk).1
    simp only [List.length_cons, List.length_nil] at hlt
    have hk0 : k = l.length := by omega
    rw [hk0] at hk ⊢
    simp at hk
    rw [← hk]
    exact hx

theorem AllFrom.mono {Pr Pr' : Nat → Nat → Prop} {c : Nat} {l : List Nat} (h : AllFrom Pr c l)
    (hm : ∀ k x, Pr k x → Pr' k x) : AllFrom Pr' c l :=
  fun k x hk => hm _ _ (h k x hk)

theorem AllFrom.nil {Pr : Nat → Nat → Prop} {c : Nat} : AllFrom Pr c [] := by
  intro k x hk; simp at hk

variable (cfg : Config) (p : Params) (b : Nat → Nat) (mem : Nat → Nat)

/-- Request `j` was made with a base in force at frame `g ≤ f`, `j/L ≤ g+1`. -/
def Asked (f : Nat) (j x : Nat) : Prop :=
  ∃ g, g ≤ f ∧ j / DmaReader.words cfg.aw cfg.shift p.length ≤ g + 1 ∧
    x = addr cfg { p with base := b g } j

/-- The answer to such a request. -/
def Answered (f : Nat) (j x : Nat) : Prop := ∃ a, Asked cfg p b f j a ∧ x = mem a

/-- The DMA side when `c` words have been consumed and frame `f`'s parameters are in force. -/
def SwitchInv (f c : Nat) (s : State) : Prop :=
  ∃ q, AllFrom (Answered cfg p b mem f) c s.fifo ∧
    AllFrom (Asked cfg p b f) (c + s.fifo.length) s.pending ∧
    q = c + s.fifo.length + s.pending.length ∧
    q ≤ c + cfg.depth ∧
    DmaReader.Progress (DmaReader.words cfg.aw cfg.shift p.length) q s.reader

variable {cfg p b mem}

theorem SwitchInv.mono {f f' c : Nat} {s : State} (h : SwitchInv cfg p b mem f c s)
    (hf : f ≤ f') : SwitchInv cfg p b mem f' c s := by
  obtain ⟨q, h1, h2, h3, h4, h5⟩ := h
  have ha : ∀ j x, Asked cfg p b f j x → Asked cfg p b f' j x := by
    rintro j x ⟨g, hg, hj, hx⟩; exact ⟨g, by omega, hj, hx⟩
  refine ⟨q, h1.mono ?_, h2.mono ha, h3, h4, h5⟩
  rintro j x ⟨a, hA, hx⟩
  exact ⟨a, ha _ _ hA, hx⟩

theorem SwitchInv.step {f c : Nat} {s : State} {i : In} (hraw : cfg.raw = false)
    (hL : 0 < DmaReader.words cfg.aw cfg.shift p.length)
    (hd : cfg.depth ≤ DmaReader.words cfg.aw cfg.shift p.length)
    (hc : c ≤ (f + 1) * DmaReader.words cfg.aw cfg.shift p.length)
    (hp : i.p = { p with base := b f }) (hv : i.pvalid = true) (hm : i.mem = mem)
    (h : SwitchInv cfg p b mem f c s) :
    SwitchInv cfg p b mem f (c + (if consumes s i then 1 else 0)) (Core.step cfg s i) := by
  obtain ⟨q, h1, h2, h3, h4, h5⟩ := h
  have hpop : (dataReady cfg s i && !s.fifo.isEmpty) = consumes s i := by
    simp only [dataReady, consumes, hv, hraw, Bool.or_false, Bool.not_true, Bool.false_or]
    cases hd : de s i
    · simp
    · cases hi : i.ready
      · simp
      · simp only [Bool.and_true, valid, hv, hd]
        cases s.fifo.isEmpty <;> rfl
  -- after popping
  have a1 : ∃ fifo1, fifo1 = (if consumes s i then s.fifo.tail else s.fifo) ∧
      AllFrom (Answered cfg p b mem f) (c + (if consumes s i then 1 else 0)) fifo1 ∧
      c + (if consumes s i then 1 else 0) + fifo1.length = c + s.fifo.length := by
    refine ⟨_, rfl, ?_⟩
    cases hcs : consumes s i
    · exact ⟨by simpa using h1, by simp⟩
    · have hne : s.fifo ≠ [] := by
        rw [hcs] at hpop
        rw [Bool.and_eq_true] at hpop
        simpa using hpop.2
      refine ⟨by simpa using h1.tail, ?_⟩
      cases hf : s.fifo with
      | nil => exact absurd hf hne
      | cons x xs => simp; omega
  obtain ⟨fifo1, e1, a2, a3⟩ := a1
  generalize hc' : c + (if consumes s i then 1 else 0) = c' at *
  -- after the answer
  have b1 : ∃ fifo2 pend2, fifo2 = (if i.answer then fifo1 ++
        (s.pending.head?.map i.mem).toList else fifo1) ∧
      pend2 = (if i.answer then s.pending.tail else s.pending) ∧
      AllFrom (Answered cfg p b mem f) c' fifo2 ∧
      AllFrom (Asked cfg p b f) (c' + fifo2.length) pend2 ∧
      c' + fifo2.length + pend2.length = q := by
    refine ⟨_, _, rfl, rfl, ?_⟩
    cases hans : i.answer
    · simp only [Bool.false_eq_true, if_false]
      exact ⟨a2, by rw [a3]; exact h2, by omega⟩
    · simp only [if_true]
      cases hpe : s.pending with
      | nil =>
        simp only [List.head?_nil, Option.map_none, Option.toList_none, List.append_nil,
          List.tail_nil, List.length_nil]
        rw [hpe] at h3
        exact ⟨a2, AllFrom.nil, by simp at h3; omega⟩
      | cons x xs =>
        simp only [List.head?_cons, Option.map_some, Option.toList_some, List.tail_cons,
          List.length_append, List.length_cons, List.length_nil]
        rw [hpe] at h2 h3
        have hx : Asked cfg p b f (c + s.fifo.length) x := h2 0 x rfl
        refine ⟨a2.append ⟨x, by rw [a3]; exact hx, by rw [hm]⟩, ?_, ?_⟩
        · have := h2.tail
          rw [show c' + (fifo1.length + (0 + 1)) = c + s.fifo.length + 1 by omega]
          exact this
        · simp only [List.length_cons] at h3; omega
  obtain ⟨fifo2, pend2, e2, e3, b2, b3, b4⟩ := b1
  refine ⟨q + (if DmaReader.requests s.reader && dmaReady cfg s i then 1 else 0), ?_⟩
  have hstep : (Core.step cfg s i).fifo = fifo2 := by
    simp only [Core.step, hpop]; rw [e2, e1]
  have hpend : (Core.step cfg s i).pending =
      if DmaReader.requests s.reader && dmaReady cfg s i then
        pend2 ++ [DmaReader.address cfg.aw cfg.shift s.reader i.p] else pend2 := by
    simp only [Core.step]; rw [e3]
  have hreader : (Core.step cfg s i).reader =
      DmaReader.step cfg.aw cfg.shift s.reader true p (dmaReady cfg s i) := by
    simp only [Core.step, hv, hp]
    rfl
  rw [hstep, hpend, hreader]
  refine ⟨b2, ?_, ?_, ?_, h5.step hL⟩
  · by_cases ha : (DmaReader.requests s.reader && dmaReady cfg s i) = true
    · rw [if_pos ha]
      apply b3.append
      rw [Bool.and_eq_true] at ha
      refine ⟨f, Nat.le_refl _, ?_, ?_⟩
      · rw [b4]
        have hdr := ha.2
        simp only [dmaReady, Bool.and_eq_true, decide_eq_true_eq] at hdr
        have : q < (f + 2) * DmaReader.words cfg.aw cfg.shift p.length := by
          have e : (f + 2) * DmaReader.words cfg.aw cfg.shift p.length =
              (f + 1) * DmaReader.words cfg.aw cfg.shift p.length +
              DmaReader.words cfg.aw cfg.shift p.length := by
            rw [show f + 2 = (f + 1) + 1 by omega, Nat.add_mul _ 1, Nat.one_mul]
          omega
        have := (Nat.div_lt_iff_lt_mul hL).2 this
        omega
      · rw [b4, hp]
        exact address_eq cfg { p with base := b f } q s.reader h5 ha.1
    · rw [if_neg ha]; exact b3
  · split
    · simp only [List.length_append, List.length_cons, List.length_nil]; omega
    · omega
  · by_cases ha : (DmaReader.requests s.reader && dmaReady cfg s i) = true
    · rw [if_pos ha]
      rw [Bool.and_eq_true] at ha
      have hdr := ha.2
      simp only [dmaReady, Bool.and_eq_true, decide_eq_true_eq] at hdr
      omega
    · rw [if_neg ha]; omega

/-- The words consumed never exceed the active pixels of the frames begun. -/
theorem activeBefore_le (p : Params) (hp : ValidMode p) (n : Nat) :
    activeBefore p n ≤ (frame p n + 1) * (p.vres * p.hres) := by
  rw [activeBefore_eq p hp n, Nat.add_mul]
  have h1 : min (line p n) p.vres * p.hres +
      (if line p n < p.vres then min (col p n) p.hres else 0) ≤ p.vres * p.hres := by
    split
    · rename_i h
      have h2 : (line p n + 1) * p.hres ≤ p.vres * p.hres := Nat.mul_le_mul_right _ (by omega)
      rw [Nat.add_mul] at h2
      rw [show min (line p n) p.vres = line p n by omega]
      omega
    · rw [show min (line p n) p.vres = p.vres by omega]; omega
  omega

/-- Timing inside the core when only the base changes. -/
theorem timing_switch (cfg : Config) (p : Params) (b : Nat → Nat) (i : Nat → In)
    (f : Nat → Nat) (hi : ∀ t, (i t).p = { p with base := b (f t) }) (t : Nat) :
    (trace (step cfg) Core.reset i t).timing =
      trace Timing.step Timing.reset (fun u => ⟨(i u).pvalid, p,
        timingReady (trace (step cfg) Core.reset i u) (i u)⟩) t := by
  induction t with
  | zero => rfl
  | succ t ih =>
    rw [trace_succ, trace_succ, ← ih]
    simp only [step, hi t]
    rfl

theorem switch_inv (cfg : Config) (p : Params) (hp : ValidMode p) (hraw : cfg.raw = false)
    (hL : 0 < DmaReader.words cfg.aw cfg.shift p.length)
    (hres : DmaReader.words cfg.aw cfg.shift p.length = p.vres * p.hres)
    (hd : cfg.depth ≤ DmaReader.words cfg.aw cfg.shift p.length)
    (b : Nat → Nat) (mem : Nat → Nat) (i : Nat → In)
    (hi : ∀ t, (i t).pvalid = true ∧ (i t).p = { p with base := b (pops cfg i t) } ∧
      (i t).mem = mem) (t : Nat) :
    SwitchInv cfg p b mem (pops cfg i t) (activeBefore p (beats cfg i t - 1))
      (trace (step cfg) Core.reset i t) ∧
    (beats cfg i t = 0 → (trace (step cfg) Core.reset i t).timing = Timing.reset) ∧
    (∀ n, beats cfg i t = n + 1 →
      Timing.At p n (trace (step cfg) Core.reset i t).timing ∧
      Timing.SyncAt p n (trace (step cfg) Core.reset i t).timing) ∧
    pops cfg i t = frame p (beats cfg i t - 1) := by
  have htr : ∀ u, timingReady (trace (step cfg) Core.reset i u) (i u) =
      (valid (trace (step cfg) Core.reset i u) (i u) && (i u).ready) := by
    intro u; simp [timingReady, (hi u).1]
  have hb : ∀ u, beats cfg i u = countIn (fun u =>
      ((⟨(i u).pvalid, p, timingReady (trace (step cfg) Core.reset i u) (i u)⟩ :
        Timing.In)).ready) 0 u := by
    intro u
    unfold beats
    exact countIn_congr _ _ _ _ _ (fun k _ => by simp only [htr])
  have htm : ∀ u, (beats cfg i u = 0 →
        (trace (step cfg) Core.reset i u).timing = Timing.reset) ∧
      (∀ n, beats cfg i u = n + 1 →
        Timing.At p n (trace (step cfg) Core.reset i u).timing ∧
        Timing.SyncAt p n (trace (step cfg) Core.reset i u).timing) := by
    intro u
    have h := Timing.trace_at p hp Timing.reset rfl rfl (fun u => ⟨(i u).pvalid, p,
        timingReady (trace (step cfg) Core.reset i u) (i u)⟩)
        (fun u => ⟨(hi u).1, rfl⟩) u
    rw [timing_switch cfg p b i (pops cfg i) (fun t => (hi t).2.1), hb]
    exact ⟨h.1, fun n hn => ⟨(h.2 n hn).1, (h.2 n hn).2.2 rfl rfl⟩⟩
  have hbs : ∀ t, beats cfg i (t + 1) = beats cfg i t +
      (if valid (trace (step cfg) Core.reset i t) (i t) && (i t).ready then 1 else 0) := by
    intro t; simp [beats, countIn]
  have hps : ∀ t, pops cfg i (t + 1) = pops cfg i t +
      (if paramsReady (trace (step cfg) Core.reset i t) (i t) then 1 else 0) := by
    intro t; simp [pops, countIn]
  have hpf : ∀ t, pops cfg i t = frame p (beats cfg i t - 1) := by
    intro t
    induction t with
    | zero => exact (pixel_zero p).2.2.symm
    | succ t ih =>
      rw [hps, hbs, ih]
      simp only [paramsReady, Timing.sinkReady, htr]
      cases hf : valid (trace (step cfg) Core.reset i t) (i t) && (i t).ready
      · simp
      · simp only [Bool.true_and, if_true]
        cases hk : beats cfg i t with
        | zero =>
          rw [(htm t).1 hk]; simp [Timing.reset]
        | succ n =>
          obtain ⟨a, -⟩ := (htm t).2 n hk
          rw [a.last]
          simp only [Nat.add_sub_cancel]
          obtain ⟨n1, n2, n3⟩ := next_pixel p n
          unfold isLast
          by_cases h1 : col p n = p.hscan
          · by_cases h2 : line p n = p.vscan
            · rw [(n3 h1 h2).2.2]; simp [h1, h2]
            · rw [(n2 h1 h2).2.2]; simp [h2]
          · rw [(n1 h1).2.2]; simp [h1]
  refine ⟨?_, (htm t).1, (htm t).2, hpf t⟩
  induction t with
  | zero =>
    exact ⟨0, AllFrom.nil, AllFrom.nil, rfl, by omega, Or.inr ⟨rfl, Nat.zero_mod _⟩⟩
  | succ t ih =>
    have h := ih.step hraw hL hd (by
      rw [hpf t, hres]; exact activeBefore_le p hp _) (hi t).2.1 (hi t).1 (hi t).2.2
    rw [trace_succ]
    have e : activeBefore p (beats cfg i (t + 1) - 1) = activeBefore p (beats cfg i t - 1) +
        (if consumes (trace (step cfg) Core.reset i t) (i t) then 1 else 0) := by
      cases hf : valid (trace (step cfg) Core.reset i t) (i t) && (i t).ready
      · rw [hbs, hf]; simp [consumes, hf]
      · rw [hbs, hf]
        simp only [if_true, consumes, hf, Bool.true_and]
        have hde : de (trace (step cfg) Core.reset i t) (i t) =
            ((trace (step cfg) Core.reset i t).timing.hactive &&
             (trace (step cfg) Core.reset i t).timing.vactive) := by
          simp [de, Timing.de, (hi t).1]
        cases hk : beats cfg i t with
        | zero =>
          rw [hde, (htm t).1 hk]; simp [Timing.reset, activeBefore]
        | succ n =>
          obtain ⟨a, -⟩ := (htm t).2 n hk
          rw [hde, a.hactive, a.vactive]
          have : activeBefore p (n + 1) = activeBefore p n + (if isActive p n then 1 else 0) := by
            simp [activeBefore, countIn]
          simp only [Nat.add_sub_cancel, this]
          rfl
    rw [e]
    exact h.mono (by rw [hps]; omega)

end Verif.Output.Core
