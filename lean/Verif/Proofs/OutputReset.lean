import Verif.Spec.OutputReset
import Verif.Proofs.GrayFifo

/-!
# Lemmas about the reset of the output's pixel clock domain
-/

namespace Verif.Output.OutputReset

open Spec.Stream Spec.OutputReset
open GrayFifo (gray writable readable address)

section

variable {cfg : Core.Config} {s0 : CoreCdc.State} {y : Nat → In}

theorem multi_ext {w : Nat} {m : Status.Multi w} {a b : BitVec w} (h1 : m.s0 = a) (h2 : m.status = b) :
    m = ⟨a, b⟩ := by
  cases m; simp_all

theorem run_succ (t : Nat) : run cfg s0 y (t + 1) = step cfg (run cfg s0 y t) (y t) := rfl

theorem consume_rst {s : CoreCdc.State} {i : In} (h : i.cdEdge = true → i.rst = true) (hc : s.fifo.consume = 0)
    (hk : s.core = Core.reset) :
    (step cfg s i).fifo.consume = 0 ∧ (step cfg s i).core = Core.reset := by
  by_cases he : i.cdEdge = true
  · simp [step, he, h he]
  · simp only [step, he, Bool.false_and, Bool.false_eq_true, if_false]
    simp [CoreCdc.step, InitiatorCdc.step, GrayFifo.step, InitiatorCdc.wire, CoreCdc.initiatorIn, he, hc, hk]

theorem consume_edge {s : CoreCdc.State} {i : In} (he : i.cdEdge = true) (h : i.rst = true) :
    (step cfg s i).fifo.consume = 0 ∧ (step cfg s i).core = Core.reset := by
  simp [step, he, h]

/-- After an edge with the reset the read counter is zero, until the reset is released. -/
theorem zero_from {A B R : Nat} (h : ∀ u, A ≤ u → u < R → (y u).cdEdge = true → (y u).rst = true)
    (hAB : A ≤ B) (hc : 1 ≤ countIn (fun u => (y u).cdEdge) A (B - A)) (t : Nat) (h1 : B ≤ t) (h2 : t ≤ R) :
    (run cfg s0 y t).fifo.consume = 0 ∧ (run cfg s0 y t).core = Core.reset := by
  have key : ∀ k, A + k ≤ R → 1 ≤ countIn (fun u => (y u).cdEdge) A k →
      (run cfg s0 y (A + k)).fifo.consume = 0 ∧ (run cfg s0 y (A + k)).core = Core.reset := by
    intro k
    induction k with
    | zero => intro _ h; exact absurd h (by simp [countIn])
    | succ k ih =>
      intro hk hc
      rw [← Nat.add_assoc, run_succ]
      by_cases he : (y (A + k)).cdEdge = true
      · exact consume_edge he (h _ (by omega) (by omega) he)
      · simp only [countIn, he, Bool.false_eq_true, if_false, Nat.add_zero] at hc
        obtain ⟨h3, h4⟩ := ih (by omega) hc
        exact consume_rst (h _ (by omega) (by omega)) h3 h4
  have h3 := GrayFifo.count_split (fun u => (y u).cdEdge) A (B - A) (t - B)
  have := key (t - A) (by omega) (by rw [show t - A = (B - A) + (t - B) by omega, h3]; omega)
  rwa [show A + (t - A) = t by omega] at this

/-- What is left until the write counter is at 4. -/
def dist (p : BitVec 3) : Nat := (4#3 - p).toNat

theorem writable_zero : ∀ p : BitVec 3, 
    ((gray p).getLsbD 2 == (0#3).getLsbD 2 || (gray p).getLsbD (2 - 1) == (0#3).getLsbD (2 - 1) ||
      (gray p).setWidth (2 - 1) != (0#3).setWidth (2 - 1)) = decide (dist p ≠ 0) := by decide

theorem dist_succ : ∀ p : BitVec 3, dist p ≠ 0 → dist (p + 1) + 1 = dist p := by decide

theorem dist_zero : ∀ p : BitVec 3, dist p = 0 → p = 4#3 := by decide

theorem dist_le : ∀ p : BitVec 3, dist p ≤ 7 := by decide

theorem writable_eq {f : GrayFifo.State 2 Params} (h : f.consume_w.status = 0) :
    writable f = decide (dist f.produce ≠ 0) := by
  rw [← writable_zero]
  simp only [writable, h]
  rfl

/-- The step of the write side while the read counter is zero. -/
theorem write_side {s : CoreCdc.State} {i : In} (h : i.cdEdge = true → i.rst = true) (hc : s.fifo.consume = 0) :
    (step cfg s i).fifo.produce =
        (if i.sysEdge && i.enable && writable s.fifo then s.fifo.produce + 1 else s.fifo.produce) ∧
      (step cfg s i).fifo.consume_w = (if i.sysEdge then ⟨0, s.fifo.consume_w.s0⟩ else s.fifo.consume_w) ∧
      (step cfg s i).fifo.storage = (fun a =>
        if i.sysEdge && i.enable && writable s.fifo && decide (a = address s.fifo.produce) then i.csr
        else s.fifo.storage a) ∧
      (step cfg s i).fifo.produce_r =
        s.fifo.produce_r.step i.cdEdge (gray s.fifo.produce)
          (gray (if i.sysEdge && i.enable && writable s.fifo then s.fifo.produce + 1 else s.fifo.produce))
          i.rOld := by
  have hp : GrayFifo.produceNext s.fifo (InitiatorCdc.wire (CoreCdc.initiatorIn s i.toIn)) =
      (if i.sysEdge && i.enable && writable s.fifo then s.fifo.produce + 1 else s.fifo.produce) := by
    simp only [GrayFifo.produceNext, InitiatorCdc.wire, CoreCdc.initiatorIn]
    by_cases hs : i.sysEdge = true <;> simp [hs]
  have hg : gray (0 : BitVec 3) = 0 := rfl
  by_cases he : i.cdEdge = true
  · refine ⟨?_, ?_, ?_, ?_⟩
    · rw [← hp]; simp [step, he, h he, CoreCdc.step, InitiatorCdc.step, GrayFifo.step]
    · simp only [step, he, h he, Bool.and_self, if_true, Status.Multi.step, hc, GrayFifo.sample_same, hg]
    · simp only [step, he, h he, Bool.and_self, if_true]; rfl
    · rw [← hp]; simp only [step, he, h he, Bool.and_self, if_true, CoreCdc.step, InitiatorCdc.step, GrayFifo.step]
      simp only [InitiatorCdc.wire, CoreCdc.initiatorIn, he]
  · refine ⟨?_, ?_, ?_, ?_⟩
    · rw [← hp]; simp [step, he, CoreCdc.step, InitiatorCdc.step, GrayFifo.step]
    · simp only [step, he, Bool.false_and, Bool.false_eq_true, if_false, CoreCdc.step, InitiatorCdc.step,
        GrayFifo.step, InitiatorCdc.wire, CoreCdc.initiatorIn, Status.Multi.step, hc, GrayFifo.sample_same, hg]
    · simp only [step, he, Bool.false_and, Bool.false_eq_true, if_false]; rfl
    · rw [← hp]
      simp only [step, he, Bool.false_and, Bool.false_eq_true, if_false, CoreCdc.step, InitiatorCdc.step,
        GrayFifo.step]
      simp only [InitiatorCdc.wire, CoreCdc.initiatorIn, he]

/-- With the reset held and `enable` set the FIFO fills up. -/
theorem fills {B R : Nat} (h : ∀ u, B ≤ u → u < R → (y u).cdEdge = true → (y u).rst = true)
    (hz : ∀ t, B ≤ t → t ≤ R → (run cfg s0 y t).fifo.consume = 0) (k : Nat) (hk : B + k ≤ R) :
    let c := countIn (fun u => (y u).sysEdge && (y u).enable) B k
    let f := (run cfg s0 y (B + k)).fifo
    (1 ≤ c → f.consume_w.s0 = 0) ∧ (2 ≤ c → f.consume_w.status = 0) ∧
      (2 ≤ c → dist f.produce + c ≤ 9 ∨ dist f.produce = 0) := by
  induction k with
  | zero => simp [countIn]
  | succ k ih =>
    obtain ⟨h1, h2, h3⟩ := ih (by omega)
    obtain ⟨e1, e2, -, -⟩ := write_side (cfg := cfg) (s := run cfg s0 y (B + k)) (h (B + k) (by omega) (by omega))
      (hz (B + k) (by omega) (by omega))
    simp only [← Nat.add_assoc, run_succ, e1, e2]
    have hl := dist_le (run cfg s0 y (B + k)).fifo.produce
    have hl' := dist_le ((run cfg s0 y (B + k)).fifo.produce + 1)
    have hc : countIn (fun u => (y u).sysEdge && (y u).enable) B (k + 1) =
      countIn (fun u => (y u).sysEdge && (y u).enable) B k +
        (if (y (B + k)).sysEdge && (y (B + k)).enable then 1 else 0) := rfl
    rw [hc]
    by_cases hs : (y (B + k)).sysEdge = true
    · simp only [hs, if_true, Bool.true_and]
      by_cases he : (y (B + k)).enable = true
      · simp only [he, if_true, Bool.true_and]
        refine ⟨fun _ => trivial, fun hc => h1 (by omega), fun hc => ?_⟩
        rcases Nat.lt_or_ge (countIn (fun u => (y u).sysEdge && (y u).enable) B k) 2 with h4 | h4
        · left
          split <;> omega
        · rw [writable_eq (h2 h4)]
          by_cases hd : dist (run cfg s0 y (B + k)).fifo.produce = 0
          · right; simp [hd]
          · have := dist_succ _ hd
            simp only [hd, ne_eq, not_false_eq_true, decide_true, if_true]
            have := h3 h4
            omega
      · simp only [he, Bool.false_and, Bool.false_eq_true, if_false, Nat.add_zero]
        exact ⟨fun _ => trivial, fun hc => h1 (by omega), h3⟩
    · simp only [hs, Bool.false_and, Bool.false_eq_true, if_false, Nat.add_zero]
      exact ⟨h1, h2, h3⟩

/-- A FIFO that holds four sets, and whose flags show them, with the core in reset. -/
structure Full (s : CoreCdc.State) : Prop where
  produce : s.fifo.produce = 4
  consume : s.fifo.consume = 0
  produce_r : s.fifo.produce_r = ⟨gray 4#3, gray 4#3⟩
  consume_w : s.fifo.consume_w = ⟨0, 0⟩
  dout : s.fifo.dout = s.fifo.storage 0
  core : s.core = Core.reset

theorem dout_rst {s : CoreCdc.State} {i : In} (he : i.cdEdge = true) (hr : i.rst = true)
    (hc : s.fifo.consume = 0) (hk : s.core = Core.reset) (hw : writable s.fifo = false) :
    (step cfg s i).fifo.dout = s.fifo.storage 0 := by
  have hre : Core.paramsReady s.core (CoreCdc.coreIn s i.toIn) = false := by
    rw [hk]
    simp [Core.paramsReady, Timing.sinkReady, Core.reset, Timing.reset]
  have hn : GrayFifo.consumeNext s.fifo (InitiatorCdc.wire (CoreCdc.initiatorIn s i.toIn)) = 0 := by
    simp [GrayFifo.consumeNext, InitiatorCdc.wire, CoreCdc.initiatorIn, hre, hc]
  simp only [step, he, hr, Bool.and_self, if_true, CoreCdc.step, InitiatorCdc.step, GrayFifo.step, hn]
  simp [GrayFifo.writes, hw, InitiatorCdc.wire, CoreCdc.initiatorIn, he, address]

theorem full_of_held {A R : Nat} (h : Held y A R) : Full (run cfg s0 y R) := by
  obtain ⟨B, C, hAB, hBC, hCR, h1, h9, h2⟩ := h.long
  have hz := fun t => zero_from (cfg := cfg) (s0 := s0) h.asserted hAB h1 t
  obtain ⟨f1, f2, f3⟩ := fills (cfg := cfg) (s0 := s0) (B := B) (R := R)
    (fun u hu => h.asserted u (by omega)) (fun t h1 h2 => (hz t h1 h2).1) (C - B) (by omega)
  rw [show B + (C - B) = C by omega] at f1 f2 f3
  have f1 := f1 (by omega)
  have f2 := f2 (by omega)
  have f3 : dist (run cfg s0 y C).fifo.produce = 0 := by have := f3 (by omega); omega
  have key : ∀ k, C + k ≤ R →
      let f := (run cfg s0 y (C + k)).fifo
      let c := countIn (fun u => (y u).cdEdge) C k
      f.consume_w = ⟨0, 0⟩ ∧ f.produce = 4#3 ∧ f.storage = (run cfg s0 y C).fifo.storage ∧
      (1 ≤ c → f.produce_r.s0 = gray 4#3 ∧ f.dout = f.storage 0) ∧ (2 ≤ c → f.produce_r.status = gray 4#3) := by
    intro k
    induction k with
    | zero =>
      intro _
      refine ⟨?_, dist_zero _ f3, rfl, fun h => absurd h (by simp [countIn]), fun h => absurd h (by simp [countIn])⟩
      show (run cfg s0 y C).fifo.consume_w = _
      exact multi_ext f1 f2
    | succ k ih =>
      intro hk
      obtain ⟨g1, g2, g3, g4, g5⟩ := ih (by omega)
      have ha := h.asserted (C + k) (by omega) (by omega)
      obtain ⟨z1, z2⟩ := hz (C + k) (by omega) (by omega)
      obtain ⟨e1, e2, e3, e4⟩ := write_side (cfg := cfg) (s := run cfg s0 y (C + k)) ha z1
      have hw : writable (run cfg s0 y (C + k)).fifo = false := by
        rw [writable_eq (by rw [g1]), g2]; rfl
      simp only [hw, Bool.and_false, Bool.false_and, Bool.false_eq_true, if_false] at e1 e3 e4
      simp only [← Nat.add_assoc, run_succ, e1, e2, e3, e4, g1, g2, g3, countIn]
      refine ⟨by split <;> rfl, trivial, trivial, ?_, ?_⟩
      · by_cases he : (y (C + k)).cdEdge = true
        · intro _
          refine ⟨by simp only [he, Status.Multi.step, if_true, GrayFifo.sample_same], ?_⟩
          rw [dout_rst he (ha he) z1 z2 hw, g3]
        · simp only [he, Status.Multi.step, Bool.false_eq_true, if_false, Nat.add_zero]
          intro hc
          obtain ⟨k1, k2⟩ := g4 hc
          refine ⟨k1, ?_⟩
          rw [← g3, ← k2]
          simp [step, he, CoreCdc.step, InitiatorCdc.step, GrayFifo.step, InitiatorCdc.wire, CoreCdc.initiatorIn]
      · by_cases he : (y (C + k)).cdEdge = true
        · simp only [he, Status.Multi.step, if_true]
          intro hc
          exact (g4 (by omega)).1
        · simp only [he, Status.Multi.step, Bool.false_eq_true, if_false, Nat.add_zero]
          exact g5
  obtain ⟨g1, g2, g3, g4, g5⟩ := key (R - C) (by omega)
  rw [show C + (R - C) = R by omega] at g1 g2 g3 g4 g5
  obtain ⟨z1, z2⟩ := hz R (by omega) (Nat.le_refl _)
  obtain ⟨k1, k2⟩ := g4 (by omega)
  have k3 := g5 h2
  exact ⟨g2, z1, multi_ext k1 k3, g1, k2, z2⟩

end

/-! ### Another way to the same state

From an empty FIFO, four sets are put in, and the pixel clock has two edges. -/

section

variable (cfg : Core.Config) (S : Nat → Params)

/-- The empty FIFO. -/
def empty : GrayFifo.State 2 Params :=
  { produce := 0, consume := 0, produce_r := ⟨0, 0⟩, consume_w := ⟨0, 0⟩, storage := S, dout := S 0 }

theorem empty_settled : GrayFifo.Settled (empty S) := by
  simp [GrayFifo.Settled, empty, gray]

/-- The sixteen instants. -/
def pre (t : Nat) : CoreCdc.In :=
  { sysEdge := decide (t ≠ 4 ∧ t ≠ 10), enable := decide (t < 4), csr := S (t % 4)
    cdEdge := decide (t = 4 ∨ t = 10), ready := false, memReady := false, answer := false, mem := fun _ => 0
    rOld := 0, wOld := 0, clash := S 0 }

/-- The states on the way. -/
def way (p : BitVec 3) (r : Status.Multi 3) : CoreCdc.State :=
  ⟨{ produce := p, consume := 0, produce_r := r, consume_w := ⟨0, 0⟩, storage := S, dout := S 0 }, Core.reset⟩

theorem way_write (k : Nat) (hk : k < 4) :
    CoreCdc.step cfg (way S (BitVec.ofNat 3 k) ⟨0, 0⟩) (pre S k) = way S (BitVec.ofNat 3 (k + 1)) ⟨0, 0⟩ := by
  have hst : ∀ (a : Nat), (if a = k then S k else S a) = S a := by
    intro a; split
    · next h => rw [h]
    · rfl
  obtain rfl | rfl | rfl | rfl : k = 0 ∨ k = 1 ∨ k = 2 ∨ k = 3 := by omega
  all_goals
    simp only [CoreCdc.step, InitiatorCdc.step, GrayFifo.step, way]
    congr 1
    congr 1
    all_goals first
      | rfl
      | (simp [GrayFifo.produceNext, GrayFifo.writable, pre, InitiatorCdc.wire, CoreCdc.initiatorIn, gray,
          Status.Multi.step, GrayFifo.sample_same]; done)
      | (funext a
         simpa [GrayFifo.writes, GrayFifo.writable, pre, InitiatorCdc.wire, CoreCdc.initiatorIn, address, gray] using hst a)

theorem way_idle (k : Nat) (h : 4 < k ∧ k < 10 ∨ 10 < k) (r : Status.Multi 3) :
    CoreCdc.step cfg (way S 4 r) (pre S k) = way S 4 r := by
  have h1 : k ≠ 4 := by omega
  have h2 : k ≠ 10 := by omega
  have h3 : ¬ k < 4 := by omega
  simp only [CoreCdc.step, InitiatorCdc.step, GrayFifo.step, way, pre, h1, h2, h3, GrayFifo.writes,
    GrayFifo.produceNext, InitiatorCdc.wire, CoreCdc.initiatorIn, Status.Multi.step]
  simp [GrayFifo.sample_same, gray]

theorem way_clock (k : Nat) (h : k = 4 ∨ k = 10) (a : BitVec 3) :
    CoreCdc.step cfg (way S 4 ⟨a, 0⟩) (pre S k) = way S 4 ⟨gray 4#3, a⟩ := by
  have h0 : k = 4 ∨ k = 10 := h
  have h3 : ¬ k < 4 := by omega
  have h4 : ¬ (k ≠ 4 ∧ k ≠ 10) := by omega
  simp only [CoreCdc.step, InitiatorCdc.step, GrayFifo.step, way, pre, h, h3, h4, GrayFifo.writes,
    GrayFifo.produceNext, InitiatorCdc.wire, CoreCdc.initiatorIn, Status.Multi.step, GrayFifo.consumeNext]
  simp [GrayFifo.sample_same, gray, Core.step, Core.reset, Timing.step, Timing.reset, CoreCdc.coreIn, readable,
    DmaReader.step, DmaReader.reset, DmaReader.requests, address]

/-- The inputs of a run from the empty FIFO that continues as `y` does from instant `R` on. -/
def then_ (y : Nat → In) (R t : Nat) : CoreCdc.In := if t < 16 then pre S t else (y (R + (t - 16))).toIn

theorem way_16 (y : Nat → In) (R : Nat) :
    Spec.CoreCdc.run cfg (empty S) (then_ S y R) 16 = way S 4 ⟨gray 4#3, gray 4#3⟩ := by
  have hs : ∀ t, t < 16 → Spec.CoreCdc.run cfg (empty S) (then_ S y R) (t + 1) =
      CoreCdc.step cfg (Spec.CoreCdc.run cfg (empty S) (then_ S y R) t) (pre S t) := by
    intro t ht
    show CoreCdc.step cfg _ (then_ S y R t) = _
    rw [then_, if_pos ht]
    rfl
  have h0 : Spec.CoreCdc.run cfg (empty S) (then_ S y R) 0 = way S (BitVec.ofNat 3 0) ⟨0, 0⟩ := rfl
  have h4 : Spec.CoreCdc.run cfg (empty S) (then_ S y R) 4 = way S 4 ⟨0, 0⟩ := by
    rw [hs 3 (by omega), hs 2 (by omega), hs 1 (by omega), hs 0 (by omega), h0, way_write _ _ 0 (by omega),
      way_write _ _ 1 (by omega), way_write _ _ 2 (by omega), way_write _ _ 3 (by omega)]
    rfl
  rw [hs 15 (by omega), hs 14 (by omega), hs 13 (by omega), hs 12 (by omega), hs 11 (by omega), hs 10 (by omega),
    hs 9 (by omega), hs 8 (by omega), hs 7 (by omega), hs 6 (by omega), hs 5 (by omega), hs 4 (by omega), h4,
    way_clock _ _ 4 (by omega), way_idle _ _ 5 (by omega), way_idle _ _ 6 (by omega), way_idle _ _ 7 (by omega),
    way_idle _ _ 8 (by omega), way_idle _ _ 9 (by omega), way_clock _ _ 10 (by omega), way_idle _ _ 11 (by omega),
    way_idle _ _ 12 (by omega), way_idle _ _ 13 (by omega), way_idle _ _ 14 (by omega), way_idle _ _ 15 (by omega)]

end

section

variable {cfg : Core.Config} {s0 : CoreCdc.State} {y : Nat → In} {R : Nat}

theorem full_eq {s : CoreCdc.State} (h : Full s) : s = way s.fifo.storage 4 ⟨gray 4#3, gray 4#3⟩ := by
  obtain ⟨h1, h2, h3, h4, h5, h6⟩ := h
  obtain ⟨⟨p, c, pr, cw, st, d⟩, k⟩ := s
  simp only at h1 h2 h3 h4 h5 h6
  subst h1 h2 h3 h4 h5 h6
  rfl

/-- From the release on the run is one from an empty FIFO. -/
theorem same_run (h : Full (run cfg s0 y R)) (hr : Released y R) (m : Nat) :
    Spec.CoreCdc.run cfg (empty (run cfg s0 y R).fifo.storage) (then_ (run cfg s0 y R).fifo.storage y R) (16 + m) =
      run cfg s0 y (R + m) := by
  induction m with
  | zero =>
    rw [Nat.add_zero, Nat.add_zero, way_16]
    exact (full_eq h).symm
  | succ m ih =>
    rw [← Nat.add_assoc R, run_succ, ← ih, step, hr (R + m) (by omega), Bool.and_false]
    simp only [Bool.false_eq_true, if_false]
    show CoreCdc.step cfg _ (then_ _ y R (16 + m)) = _
    rw [then_, if_neg (by omega), show 16 + m - 16 = m by omega]
    rfl

theorem then_after (S : Nat → Params) (m : Nat) : then_ S y R (16 + m) = (y (R + m)).toIn := by
  rw [then_, if_neg (by omega), show 16 + m - 16 = m by omega]

end

end Verif.Output.OutputReset
