import Verif.Proofs.CoreCdc
import Verif.Props.Output

/-!
# Lemmas about disabling and enabling the output
-/

namespace Verif.Output.CoreCdc

open Spec.Stream Spec.Output Spec.CoreCdc
open Spec.InitiatorCdc (offered takes setAt Runs initiator)

variable {cfg : Core.Config} {f0 : GrayFifo.State 2 Params} {i : Nat → In}

/-- The words shown, from an instant at which the reader starts a buffer. -/
theorem words_from {P : Params} {mem : Nat → Nat} (hP : ValidMode P) (hraw : cfg.raw = false)
    (hL : 0 < DmaReader.words cfg.aw cfg.shift P.length) {a : Nat}
    (hz : (core cfg f0 i a).timing = { (core cfg f0 i a).timing with
      hactive := false, vactive := false, hcounter := 0, vcounter := 0 })
    (hdr : Drained (core cfg f0 i a)) (m : Nat)
    (hv : ∀ u, a ≤ u → u < a + m → (given cfg f0 i u).pvalid = true ∧ (given cfg f0 i u).p = P ∧
      (i u).mem = mem) :
    Core.DmaInv cfg P mem (activeBefore P (countIn (beat cfg f0 i) a m - 1)) (core cfg f0 i (a + m)) := by
  have hz' : (core cfg f0 i a).timing.hcounter = 0 ∧ (core cfg f0 i a).timing.vcounter = 0 :=
    ⟨congrArg Timing.State.hcounter hz, congrArg Timing.State.vcounter hz⟩
  have hact : (core cfg f0 i a).timing.hactive = false := congrArg Timing.State.hactive hz
  induction m with
  | zero =>
    refine ⟨0, ⟨?_, ?_, ?_⟩, Or.inr ⟨hdr.idle, Nat.zero_mod _⟩⟩
    · show (core cfg f0 i a).fifo = _
      rw [show (core cfg f0 i (a + 0)).fifo = [] from hdr.fifo]; exact hdr.fifo
    · show (core cfg f0 i a).pending = _
      rw [show (core cfg f0 i (a + 0)).pending = [] from hdr.pending]; exact hdr.pending
    · rw [show (core cfg f0 i (a + 0)).pending = [] from hdr.pending,
        show (core cfg f0 i (a + 0)).fifo = [] from hdr.fifo]
      rfl
  | succ m ih =>
    have ih := ih (fun u h1 h2 => hv u h1 (by omega))
    obtain ⟨v1, v2, v3⟩ := hv (a + m) (by omega) (by omega)
    obtain ⟨r0, r1⟩ := raster_from (cfg := cfg) (f0 := f0) (i := i) hP hz' m
      (fun u h1 h2 => ⟨(hv u h1 (by omega)).1, (hv u h1 (by omega)).2.1⟩)
    have hc : countIn (beat cfg f0 i) a (m + 1) = countIn (beat cfg f0 i) a m +
      (if beat cfg f0 i (a + m) then 1 else 0) := rfl
    rw [hc, ← Nat.add_assoc, core_succ]
    have hb : beat cfg f0 i (a + m) = ((i (a + m)).cdEdge &&
        (Core.valid (core cfg f0 i (a + m)) (given cfg f0 i (a + m)) && (i (a + m)).ready)) := by
      rw [← Bool.and_assoc]; rfl
    cases he : (i (a + m)).cdEdge
    · rw [hb, he]
      simpa using ih
    · rw [if_pos rfl]
      have h := ih.step hraw hL v2 v1 v3
      have e : activeBefore P (countIn (beat cfg f0 i) a m +
            (if beat cfg f0 i (a + m) then 1 else 0) - 1) =
          activeBefore P (countIn (beat cfg f0 i) a m - 1) +
            (if Core.consumes (core cfg f0 i (a + m)) (given cfg f0 i (a + m)) then 1 else 0) := by
        have hcs : Core.consumes (core cfg f0 i (a + m)) (given cfg f0 i (a + m)) =
            (beat cfg f0 i (a + m) && Core.de (core cfg f0 i (a + m)) (given cfg f0 i (a + m))) := by
          rw [hb, he, Bool.true_and]; rfl
        rw [hcs]
        cases hf : beat cfg f0 i (a + m)
        · simp
        · simp only [if_true, Bool.true_and]
          have hde : Core.de (core cfg f0 i (a + m)) (given cfg f0 i (a + m)) =
              ((core cfg f0 i (a + m)).timing.hactive && (core cfg f0 i (a + m)).timing.vactive) := by
            simp only [Core.de, Timing.de, v1, Bool.true_and]
          cases hk : countIn (beat cfg f0 i) a m with
          | zero =>
            rw [hde, r0 hk, hact]; simp [activeBefore]
          | succ n =>
            obtain ⟨g, -⟩ := r1 n hk
            rw [hde, g.hactive, g.vactive]
            have : activeBefore P (n + 1) = activeBefore P n + (if isActive P n then 1 else 0) := by
              simp [activeBefore, countIn]
            simp only [Nat.add_sub_cancel, this]
            rfl
      rw [e]
      exact h

/-- The state after the last edge without parameters. -/
theorem cleared (t : Nat) (h : (given cfg f0 i t).pvalid = false) (he : (i t).cdEdge = true) :
    (core cfg f0 i (t + 1)).timing = { (core cfg f0 i (t + 1)).timing with
      hactive := false, vactive := false, hcounter := 0, vcounter := 0 } := by
  rw [core_succ, he, if_pos rfl]
  simp only [Core.step, Timing.step, h, Bool.not_false, if_true]

/-- Without parameters a drained reader stays so. -/
theorem stays_drained (t : Nat) (h : (given cfg f0 i t).pvalid = false) (hd : Drained (core cfg f0 i t)) :
    Drained (core cfg f0 i (t + 1)) := by
  rw [core_succ]
  split
  · obtain ⟨h1, h2, h3⟩ := hd
    refine ⟨?_, ?_, ?_⟩
    · simp [Core.step, DmaReader.step, h1, h]
    · simp [Core.step, DmaReader.requests, h1, h2]
    · simp [Core.step, h2, h3]
  · exact hd

/-- Without parameters nothing enters the FIFO, and what it shows does not change after an edge. -/
theorem frozen (h0 : GrayFifo.Settled f0) (hrun : Runs fun u => (i u).cdEdge) (t : Nat)
    (h : ∀ u, t ≤ u → (given cfg f0 i u).pvalid = false) :
    ∃ T, t ≤ T ∧ ∀ u, T ≤ u → (given cfg f0 i u).p = (given cfg f0 i T).p := by
  have hn : 1 ≤ 2 := by decide
  let x := fun u => InitiatorCdc.wire (initIn cfg f0 i u)
  have hr : ∀ t, (x t).writeRst = false := fun _ => rfl
  have hf : ∀ t, (run cfg f0 i t).fifo = GrayFifo.fifo f0 x t := by
    intro t; rw [fifo_eq, Props.initiator_fifo]
  have hdark : ∀ u, t ≤ u → GrayFifo.readable (GrayFifo.fifo f0 x u) = false := by
    intro u hu; rw [← hf]; exact h u hu
  have hwr : ∀ u, t ≤ u → GrayFifo.writes (GrayFifo.fifo f0 x u) (x u) = false := by
    intro u hu
    cases hw : GrayFifo.writes (GrayFifo.fifo f0 x u) (x u)
    · rfl
    · obtain ⟨_, _, _, _, inv⟩ := GrayFifo.inv_all hn h0 hr u
      have hen : GrayFifo.enters f0 x u = true := hw
      have hne : GrayFifo.queue f0 x (u + 1) ≠ [] := by
        rw [inv.queue_succ hn, hen]; simp
      obtain ⟨v, hv, hread⟩ := GrayFifo.offers_later hn h0 hr hrun (u + 1) hne
      rw [hdark v (by omega)] at hread
      exact absurd hread (by decide)
  have hcn : ∀ u, t ≤ u → GrayFifo.consumeNext (GrayFifo.fifo f0 x u) (x u) =
      (GrayFifo.fifo f0 x u).consume := by
    intro u hu
    unfold GrayFifo.consumeNext
    rw [hdark u hu]; rfl
  have hstep : ∀ u, t ≤ u →
      (GrayFifo.fifo f0 x (u + 1)).consume = (GrayFifo.fifo f0 x u).consume ∧
      (GrayFifo.fifo f0 x (u + 1)).storage = (GrayFifo.fifo f0 x u).storage ∧
      (GrayFifo.fifo f0 x (u + 1)).dout = if (x u).readEdge then
        (GrayFifo.fifo f0 x u).storage (GrayFifo.address (GrayFifo.fifo f0 x u).consume)
        else (GrayFifo.fifo f0 x u).dout := by
    intro u hu
    have e : GrayFifo.fifo f0 x (u + 1) = GrayFifo.step (GrayFifo.fifo f0 x u) (x u) := rfl
    rw [e]
    refine ⟨?_, ?_, ?_⟩
    · simp only [GrayFifo.step, hcn u hu, ite_self]
    · simp only [GrayFifo.step, hwr u hu, Bool.false_and, Bool.false_eq_true, if_false]
    · simp only [GrayFifo.step, hwr u hu, Bool.false_and, Bool.false_eq_true, if_false, hcn u hu]
  have hsame : ∀ u, t ≤ u → (GrayFifo.fifo f0 x u).consume = (GrayFifo.fifo f0 x t).consume ∧
      (GrayFifo.fifo f0 x u).storage = (GrayFifo.fifo f0 x t).storage := by
    apply Core.persists
    · exact ⟨rfl, rfl⟩
    · intro u hu ih
      obtain ⟨a, b, -⟩ := hstep u hu
      exact ⟨a.trans ih.1, b.trans ih.2⟩
  obtain ⟨e, he, hedge⟩ := hrun t
  let z := (GrayFifo.fifo f0 x t).storage (GrayFifo.address (GrayFifo.fifo f0 x t).consume)
  have hz : ∀ u, e + 1 ≤ u → (GrayFifo.fifo f0 x u).dout = z := by
    apply Core.persists
    · rw [(hstep e he).2.2]
      have : (x e).readEdge = true := hedge
      rw [if_pos this, (hsame e he).1, (hsame e he).2]
    · intro u hu ih
      rw [(hstep u (by omega)).2.2]
      split
      · rw [(hsame u (by omega)).1, (hsame u (by omega)).2]
      · exact ih
  refine ⟨e + 1, by omega, fun u hu => ?_⟩
  show (run cfg f0 i u).fifo.dout = (run cfg f0 i (e + 1)).fifo.dout
  rw [hf, hf, hz u hu, hz (e + 1) (Nat.le_refl _)]

/-- Without parameters and without further requests all words are discarded. -/
theorem empties (hl : Live i) (t : Nat) (h : ∀ u, t ≤ u → (given cfg f0 i u).pvalid = false)
    (hno : ∀ u, t ≤ u → (i u).cdEdge = true → (DmaReader.requests (core cfg f0 i u).reader &&
      Core.dmaReady cfg (core cfg f0 i u) (given cfg f0 i u)) = false) :
    ∃ T, t ≤ T ∧ ∀ u, T ≤ u → (core cfg f0 i u).pending = [] ∧ (core cfg f0 i u).fifo = [] := by
  have hpend : ∀ u, t ≤ u → (core cfg f0 i (u + 1)).pending =
      if (i u).cdEdge && (i u).answer then (core cfg f0 i u).pending.tail
      else (core cfg f0 i u).pending := by
    intro u hu
    rw [core_succ]
    cases he : (i u).cdEdge
    · simp
    · simp only [if_true, Core.step, hno u hu he, Bool.false_eq_true, if_false, Bool.true_and]
      rfl
  -- pending
  have p1 : ∀ m a, t ≤ a → (core cfg f0 i a).pending.length ≤ m →
      ∃ b, a ≤ b ∧ (core cfg f0 i b).pending = [] := by
    intro m
    induction m with
    | zero => intro a _ hm; exact ⟨a, Nat.le_refl _, List.eq_nil_of_length_eq_zero (by omega)⟩
    | succ m ih =>
      intro a ha hm
      obtain ⟨b, hb, he, hans⟩ := hl.answer a
      have hle : ∀ u, a ≤ u → (core cfg f0 i u).pending.length ≤ (core cfg f0 i a).pending.length := by
        apply Core.persists
        · exact Nat.le_refl _
        · intro u hu ih
          rw [hpend u (by omega)]
          split
          · rw [List.length_tail]; omega
          · exact ih
      obtain ⟨c, hc, h'⟩ := ih (b + 1) (by omega) (by
        rw [hpend b (by omega), he, hans]
        have := hle b hb
        simp only [Bool.and_self, if_true, List.length_tail]
        omega)
      exact ⟨c, by omega, h'⟩
  obtain ⟨b, hb, hpb⟩ := p1 _ t (Nat.le_refl _) (Nat.le_refl _)
  have hp0 : ∀ u, b ≤ u → (core cfg f0 i u).pending = [] := by
    apply Core.persists
    · exact hpb
    · intro u hu ih
      rw [hpend u (by omega), ih]
      split <;> rfl
  have hfifo : ∀ u, b ≤ u → (core cfg f0 i (u + 1)).fifo =
      if (i u).cdEdge then (core cfg f0 i u).fifo.tail else (core cfg f0 i u).fifo := by
    intro u hu
    rw [core_succ]
    cases he : (i u).cdEdge
    · simp
    · simp only [if_true, Core.step, hp0 u hu, Core.dataReady, h u (by omega), Bool.not_false,
        Bool.true_or, Bool.true_and, List.head?_nil, Option.map_none, Option.toList_none,
        List.append_nil, ite_self]
      cases (core cfg f0 i u).fifo <;> rfl
  have f1 : ∀ m a, b ≤ a → (core cfg f0 i a).fifo.length ≤ m →
      ∃ c, a ≤ c ∧ (core cfg f0 i c).fifo = [] := by
    intro m
    induction m with
    | zero => intro a _ hm; exact ⟨a, Nat.le_refl _, List.eq_nil_of_length_eq_zero (by omega)⟩
    | succ m ih =>
      intro a ha hm
      obtain ⟨d, hd, he, -⟩ := hl.answer a
      have hle : ∀ u, a ≤ u → (core cfg f0 i u).fifo.length ≤ (core cfg f0 i a).fifo.length := by
        apply Core.persists
        · exact Nat.le_refl _
        · intro u hu ih
          rw [hfifo u (by omega)]
          split
          · rw [List.length_tail]; omega
          · exact ih
      obtain ⟨c, hc, h'⟩ := ih (d + 1) (by omega) (by
        rw [hfifo d (by omega), he]
        have := hle d hd
        simp only [if_true, List.length_tail]
        omega)
      exact ⟨c, by omega, h'⟩
  obtain ⟨c, hc, hfc⟩ := f1 _ b (Nat.le_refl _) (Nat.le_refl _)
  have hf0 : ∀ u, c ≤ u → (core cfg f0 i u).fifo = [] := by
    apply Core.persists
    · exact hfc
    · intro u hu ih
      rw [hfifo u (by omega), ih]
      split <;> rfl
  exact ⟨c, by omega, fun u hu => ⟨hp0 u (by omega), hf0 u hu⟩⟩

/-- Without parameters the reader finishes its buffer. -/
theorem drains (hd : 0 < cfg.depth) (h0 : GrayFifo.Settled f0) (hl : Live i) (t : Nat)
    (h : ∀ u, t ≤ u → (given cfg f0 i u).pvalid = false) :
    ∃ T, t ≤ T ∧ Drained (core cfg f0 i T) := by
  have hrun : Runs fun u => (i u).cdEdge := by
    intro T
    obtain ⟨u, h1, h2, -⟩ := hl.ready T
    exact ⟨u, h1, h2⟩
  obtain ⟨t1, ht1, hp⟩ := frozen (cfg := cfg) h0 hrun t h
  generalize hz : (given cfg f0 i t1).p = z at hp
  -- it becomes idle
  have hidle : ∃ a, t1 ≤ a ∧ (core cfg f0 i a).reader.fsm = .idle := by
    apply Classical.byContradiction
    intro hno
    have hread : ∀ a, t1 ≤ a → (core cfg f0 i a).reader.fsm = .read := by
      intro a ha
      cases hf : (core cfg f0 i a).reader.fsm with
      | idle => exact absurd ⟨a, ha, hf⟩ hno
      | read => rfl
      | waitSof => exact absurd hf (not_wait a)
    have hreader : ∀ a, t1 ≤ a → (core cfg f0 i (a + 1)).reader =
        if (i a).cdEdge && Core.dmaReady cfg (core cfg f0 i a) (given cfg f0 i a) then
          { fsm := if DmaReader.atEnd cfg.aw cfg.shift (core cfg f0 i a).reader z then .idle else .read
            offset := ((core cfg f0 i a).reader.offset + 1) % 2 ^ cfg.aw }
        else (core cfg f0 i a).reader := by
      intro a ha
      rw [core_succ]
      cases he : (i a).cdEdge
      · simp
      · simp only [if_true, Core.step, DmaReader.step, hread a ha, hp a ha, Bool.true_and]
    -- requests are accepted again and again
    have again : ∀ a, t1 ≤ a → ∃ b, a ≤ b ∧ ((i b).cdEdge &&
        Core.dmaReady cfg (core cfg f0 i b) (given cfg f0 i b)) = true := by
      intro a ha
      apply Classical.byContradiction
      intro hn
      obtain ⟨T, hT, hE⟩ := empties (cfg := cfg) hl a (fun u hu => h u (by omega)) (by
        intro u hu he
        cases hc : (DmaReader.requests (core cfg f0 i u).reader &&
          Core.dmaReady cfg (core cfg f0 i u) (given cfg f0 i u))
        · rfl
        · rw [Bool.and_eq_true] at hc
          exact absurd ⟨u, hu, by rw [he, hc.2]; rfl⟩ hn)
      obtain ⟨v, hv, he, hm⟩ := hl.memReady T
      refine hn ⟨v, by omega, ?_⟩
      have hm' : (given cfg f0 i v).memReady = true := hm
      simp only [he, Core.dmaReady, hm', (hE v hv).1, (hE v hv).2, List.length_nil, Nat.add_zero,
        Bool.true_and, decide_eq_true_eq]
      exact hd
    have next : ∀ a, t1 ≤ a → ∃ b, a ≤ b ∧ ((i b).cdEdge &&
        Core.dmaReady cfg (core cfg f0 i b) (given cfg f0 i b)) = true ∧
        (core cfg f0 i b).reader = (core cfg f0 i a).reader := by
      intro a ha
      obtain ⟨b, hb, h1⟩ := again a ha
      obtain ⟨k, rfl⟩ := Nat.exists_eq_add_of_le hb
      clear hb
      induction k generalizing a with
      | zero => exact ⟨a, Nat.le_refl _, h1, rfl⟩
      | succ k ih =>
        cases hc : ((i a).cdEdge && Core.dmaReady cfg (core cfg f0 i a) (given cfg f0 i a))
        · obtain ⟨b, g1, g2, g3⟩ := ih (a + 1) (by omega) (by
            rw [show a + 1 + k = a + (k + 1) by omega]; exact h1)
          refine ⟨b, by omega, g2, ?_⟩
          rw [g3, hreader a ha, hc]; rfl
        · exact ⟨a, Nat.le_refl _, hc, rfl⟩
    -- so the offset reaches the end
    let E := (DmaReader.words cfg.aw cfg.shift z.length + 2 ^ cfg.aw - 1) % 2 ^ cfg.aw
    have hE : E < 2 ^ cfg.aw := Nat.mod_lt _ (Nat.two_pow_pos _)
    have noend : ∀ a, t1 ≤ a → (core cfg f0 i a).reader.offset ≠ E := by
      intro a ha hoff
      obtain ⟨b, hb, h1, h2⟩ := next a ha
      have h3 := hread (b + 1) (by omega)
      rw [hreader b (by omega), h1, if_pos rfl, h2] at h3
      have : DmaReader.atEnd cfg.aw cfg.shift (core cfg f0 i a).reader z = true := by
        unfold DmaReader.atEnd
        rw [hoff]; simp [E]
      rw [this] at h3
      exact absurd h3 (by simp)
    have reach : ∀ k a, t1 ≤ a → ((core cfg f0 i a).reader.offset + k) % 2 ^ cfg.aw = E → 
        (core cfg f0 i a).reader.offset < 2 ^ cfg.aw → False := by
      intro k
      induction k with
      | zero =>
        intro a ha hk hlt
        rw [Nat.add_zero, Nat.mod_eq_of_lt hlt] at hk
        exact noend a ha hk
      | succ k ih =>
        intro a ha hk hlt
        obtain ⟨b, hb, h1, h2⟩ := next a ha
        have h3 : (core cfg f0 i (b + 1)).reader.offset =
            ((core cfg f0 i a).reader.offset + 1) % 2 ^ cfg.aw := by
          rw [hreader b (by omega), h1, if_pos rfl, h2]
        refine ih (b + 1) (by omega) ?_ (by rw [h3]; exact Nat.mod_lt _ (Nat.two_pow_pos _))
        rw [h3, Nat.mod_add_mod]
        rw [← hk]; congr 1; omega
    obtain ⟨b, hb, h1, h2⟩ := next t1 (Nat.le_refl _)
    have h3 : (core cfg f0 i (b + 1)).reader.offset =
        ((core cfg f0 i t1).reader.offset + 1) % 2 ^ cfg.aw := by
      rw [hreader b (by omega), h1, if_pos rfl, h2]
    have hlt : (core cfg f0 i (b + 1)).reader.offset < 2 ^ cfg.aw := by
      rw [h3]; exact Nat.mod_lt _ (Nat.two_pow_pos _)
    refine reach (E + 2 ^ cfg.aw - (core cfg f0 i (b + 1)).reader.offset) (b + 1) (by omega) ?_ hlt
    rw [show (core cfg f0 i (b + 1)).reader.offset + (E + 2 ^ cfg.aw -
      (core cfg f0 i (b + 1)).reader.offset) = E + 2 ^ cfg.aw by omega, Nat.add_mod_right,
      Nat.mod_eq_of_lt hE]
  obtain ⟨a, ha, hia⟩ := hidle
  have hi : ∀ u, a ≤ u → (core cfg f0 i u).reader.fsm = .idle := by
    apply Core.persists
    · exact hia
    · intro u hu ih
      rw [core_succ]
      split
      · simp [Core.step, DmaReader.step, ih, h u (by omega)]
      · exact ih
  obtain ⟨T, hT, hE⟩ := empties (cfg := cfg) hl a (fun u hu => h u (by omega)) (by
    intro u hu _
    simp [DmaReader.requests, hi u hu])
  exact ⟨T, by omega, hi T hT, (hE T (Nat.le_refl _)).1, (hE T (Nat.le_refl _)).2⟩

/-- With `enable` clear the sets in the FIFO are used up. -/
theorem runs_dry (hd : 0 < cfg.depth) (h0 : GrayFifo.Settled f0) (hw : Narrow i) (hl : Live i) (t : Nat)
    (hoff : ∀ u, t ≤ u → (i u).enable = false) :
    ∃ T, t ≤ T ∧ ∀ u, T ≤ u → (given cfg f0 i u).pvalid = false := by
  apply Classical.byContradiction
  intro hno
  let x := fun u => InitiatorCdc.wire (initIn cfg f0 i u)
  have again : ∀ T, t ≤ T → ∃ u, T ≤ u ∧ GrayFifo.leaves f0 x u = true := by
    intro T hT
    have : ∃ u, T ≤ u ∧ (given cfg f0 i u).pvalid = true := by
      apply Classical.byContradiction
      intro h
      refine hno ⟨T, hT, fun u hu => ?_⟩
      cases hv : (given cfg f0 i u).pvalid
      · rfl
      · exact absurd ⟨u, hu, hv⟩ h
    obtain ⟨u, hu, hv⟩ := this
    obtain ⟨v, h1, h2, -⟩ := taken_later hd h0 hw hl u hv
    exact ⟨v, by omega, by rw [← Props.takes_leaves]; exact h2⟩
  have hent : ∀ u, t ≤ u → GrayFifo.entered f0 x u = GrayFifo.entered f0 x t := by
    apply Core.persists
    · rfl
    · intro u hu ih
      rw [GrayFifo.entered_succ, ih]
      have : GrayFifo.enters f0 x u = false := by
        have he : (x u).we = false := hoff u hu
        simp [GrayFifo.enters, he]
      rw [this]; rfl
  have grow : ∀ k, ∃ u, t ≤ u ∧ k ≤ GrayFifo.left f0 x u := by
    intro k
    induction k with
    | zero => exact ⟨t, Nat.le_refl _, Nat.zero_le _⟩
    | succ k ih =>
      obtain ⟨u, hu, hk⟩ := ih
      obtain ⟨v, hv, hlv⟩ := again u hu
      refine ⟨v + 1, by omega, ?_⟩
      have := GrayFifo.left_mono (s0 := f0) (x := x) hv
      rw [GrayFifo.left_succ, hlv, if_pos rfl]
      omega
  obtain ⟨u, hu, hk⟩ := grow (GrayFifo.entered f0 x t + 1)
  obtain ⟨_, _, _, _, inv⟩ := GrayFifo.inv_all (by decide) h0 (fun _ => rfl : ∀ t, (x t).writeRst = false) u
  have := inv.length
  have := hent u hu
  omega

end Verif.Output.CoreCdc
