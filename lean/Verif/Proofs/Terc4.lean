import Verif.Model.Terc4
import Verif.Spec.Hdmi

/-!
# HDMI period decoding: lemmas
-/

namespace Verif.Terc4

open Spec (Hdmi.Triple Hdmi.Phase)
open Spec.Tmds (tokens)

/-- The flags a channel decoder derives from a valid word. -/
theorem cvalid_valid (k : Nat) (s : Channel.State) (w : BitVec 10) :
    (Channel.step k s true w).c_valid = decide (w ∈ tokens) := by
  unfold Channel.step
  simp only [if_true]
  split
  · subst w; rfl
  split
  · subst w; rfl
  split
  · subst w; rfl
  split
  · subst w; rfl
  have hn : decide (w ∈ tokens) = false := by
    simp_all [tokens, Decoding.controlToken]
  rw [hn]
  split
  · rfl
  split <;> rfl

theorem vgb_valid (k : Nat) (s : Channel.State) (w : BitVec 10) :
    (Channel.step k s true w).vgb = decide (w = videoGuard k) := by
  have hk : k = 0 ∨ k = 1 ∨ videoGuard k = 0b1011001100#10 ∧ decide (k = 1) = false := by
    match k with
    | 0 => left; rfl
    | 1 => right; left; rfl
    | k + 2 => right; right; exact ⟨rfl, by simp⟩
  have hv : ∀ i, i < 4 → Decoding.controlToken i ≠ videoGuard k := by
    intro i hi
    rcases hk with h | h | h
    · subst h; revert i; decide
    · subst h; revert i; decide
    · rw [h.1]; revert i; decide
  unfold Channel.step
  simp only [if_true]
  split
  · subst w; simp [hv 0]
  split
  · subst w; simp [hv 1]
  split
  · subst w; simp [hv 2]
  split
  · subst w; simp [hv 3]
  split
  · subst w
    rcases hk with h | h | h
    · subst h; rfl
    · subst h; rfl
    · rw [h.1]; simp only [h.2]; rfl
  split
  · rename_i h; simp [h]
  · rename_i h; simp [h]

theorem dgb_valid (k : Nat) (s : Channel.State) (w : BitVec 10) :
    (Channel.step k s true w).dgb = decide (w = dataGuard) := by
  have hk : k = 0 ∨ k = 1 ∨ videoGuard k = 0b1011001100#10 ∧ decide (k = 1) = false := by
    match k with
    | 0 => left; rfl
    | 1 => right; left; rfl
    | k + 2 => right; right; exact ⟨rfl, by simp⟩
  unfold Channel.step
  simp only [if_true]
  split
  · subst w; rfl
  split
  · subst w; rfl
  split
  · subst w; rfl
  split
  · subst w; rfl
  split
  · rename_i h; simp [h]
  split
  · rename_i h h'
    rcases hk with hk | hk | hk
    · subst hk; simp [h]
    · subst hk; exact absurd h' h
    · simp only [hk.2]; simp [h]
  · rename_i h _; simp [h]

theorem c_token (k : Nat) (s : Channel.State) :
    (Channel.step k s true 0b0010101011#10).c = 1#2 := rfl

theorem c_videoGuard (k : Nat) (s : Channel.State) :
    (Channel.step k s true (videoGuard k)).c = 0#2 := by
  match k with
  | 0 => rfl
  | 1 => rfl
  | k + 2 => rfl

/-- Without a valid word all flags are 0. -/
theorem flags_invalid (k : Nat) (s : Channel.State) (w : BitVec 10) :
    (Channel.step k s false w).c_valid = false ∧ (Channel.step k s false w).vgb = false ∧
    (Channel.step k s false w).dgb = false := ⟨rfl, rfl, rfl⟩

/-- The three words presented in one clock. -/
def triple (x : In) : Spec.Hdmi.Triple := ⟨x.data_in0.raw, x.data_in1.raw, x.data_in2.raw⟩

theorem allVgb_step (s : State) (x : In) :
    allVgb (step s x) = (x.valid_i && decide (triple x = Spec.Hdmi.videoGuard)) := by
  have e : (decide (triple x = Spec.Hdmi.videoGuard)) =
      (decide (x.data_in0.raw = videoGuard 0) && decide (x.data_in1.raw = videoGuard 1) &&
        decide (x.data_in2.raw = videoGuard 2)) := by
    simp only [triple, Spec.Hdmi.videoGuard, Spec.Hdmi.Triple.mk.injEq, videoGuard,
      Bool.decide_and, Bool.and_assoc]
  cases hv : x.valid_i
  · simp only [allVgb, step, hv, (flags_invalid _ _ _).2.1, Bool.false_and]
  · simp only [allVgb, step, hv, vgb_valid, e, Bool.true_and]

theorem anyCvalid_step (s : State) (x : In) :
    anyCvalid (step s x) = (x.valid_i && (decide (x.data_in0.raw ∈ tokens) ||
      decide (x.data_in1.raw ∈ tokens) || decide (x.data_in2.raw ∈ tokens))) := by
  cases hv : x.valid_i
  · simp only [anyCvalid, step, hv, (flags_invalid _ _ _).1, Bool.false_and, Bool.or_self]
  · simp only [anyCvalid, step, hv, cvalid_valid, Bool.true_and]

theorem c2c1Dgb_step (s : State) (x : In) :
    c2c1Dgb (step s x) = (x.valid_i && (decide (x.data_in2.raw = dataGuard) &&
      decide (x.data_in1.raw = dataGuard))) := by
  cases hv : x.valid_i
  · simp only [c2c1Dgb, step, hv, (flags_invalid _ _ _).2.2, Bool.false_and]
  · simp only [c2c1Dgb, step, hv, dgb_valid, Bool.true_and]

/-! ## Summary of a word for the FSM -/

open Spec.Hdmi (islandGuard carries islandPreamble follows Sends terc4)

theorem terc4_not_token {w : BitVec 10} (h : w ∈ terc4) : w ∉ tokens := by
  revert w; decide +kernel

theorem terc4_not_guard {w : BitVec 10} (h : w ∈ terc4) : w ≠ islandGuard := by
  revert w; decide +kernel

theorem token_not_guard {w : BitVec 10} (h : w ∈ tokens) :
    w ≠ islandGuard ∧ w ≠ 0b1011001100#10 := by
  revert w; decide +kernel

variable {x : In} {s : State}

theorem sum_control (hv : x.valid_i = true) (h : carries .control (triple x)) :
    allVgb (step s x) = false ∧ anyCvalid (step s x) = true ∧ c2c1Dgb (step s x) = false := by
  obtain ⟨h0, h1, h2⟩ := h
  refine ⟨?_, ?_, ?_⟩
  · rw [allVgb_step, hv, Bool.true_and, decide_eq_false_iff_not]
    intro e
    exact (token_not_guard h0).2 (congrArg Spec.Hdmi.Triple.c0 e)
  · rw [anyCvalid_step, hv]
    have : decide (x.data_in0.raw ∈ tokens) = true := decide_eq_true h0
    rw [this]; rfl
  · rw [c2c1Dgb_step, hv]
    have : decide (x.data_in2.raw = dataGuard) = false :=
      decide_eq_false (token_not_guard h2).1
    rw [this]; rfl

theorem sum_videoGuard (hv : x.valid_i = true) (h : carries .videoGuard (triple x)) :
    allVgb (step s x) = true ∧ ctlCode (step s x) = 0#4 := by
  have h' : triple x = Spec.Hdmi.videoGuard := h
  refine ⟨by rw [allVgb_step, hv, h']; rfl, ?_⟩
  have h1 : x.data_in1.raw = Terc4.videoGuard 1 := congrArg Spec.Hdmi.Triple.c1 h'
  have h2 : x.data_in2.raw = Terc4.videoGuard 2 := congrArg Spec.Hdmi.Triple.c2 h'
  simp only [ctlCode, step, hv, h1, h2, c_videoGuard]
  rfl

theorem sum_pixel (hv : x.valid_i = true) (h : carries .pixel (triple x)) :
    allVgb (step s x) = decide (triple x = Spec.Hdmi.videoGuard) ∧ anyCvalid (step s x) = false := by
  obtain ⟨h0, h1, h2⟩ := h
  refine ⟨by rw [allVgb_step, hv, Bool.true_and], ?_⟩
  rw [anyCvalid_step, hv]
  have e0 : decide (x.data_in0.raw ∈ tokens) = false := decide_eq_false h0
  have e1 : decide (x.data_in1.raw ∈ tokens) = false := decide_eq_false h1
  have e2 : decide (x.data_in2.raw ∈ tokens) = false := decide_eq_false h2
  rw [e0, e1, e2]; rfl

theorem sum_guard (hv : x.valid_i = true) (h : carries .islandLead (triple x)) :
    allVgb (step s x) = false ∧ anyCvalid (step s x) = false ∧ c2c1Dgb (step s x) = true := by
  obtain ⟨h0, h1, h2⟩ := h
  have h1' : x.data_in1.raw = islandGuard := h1
  have h2' : x.data_in2.raw = islandGuard := h2
  refine ⟨?_, ?_, ?_⟩
  · rw [allVgb_step, hv, Bool.true_and, decide_eq_false_iff_not]
    intro e
    have := congrArg Spec.Hdmi.Triple.c2 e
    rw [h2] at this
    exact absurd this (by decide)
  · rw [anyCvalid_step, hv, h1', h2']
    have : decide (x.data_in0.raw ∈ tokens) = false := decide_eq_false (terc4_not_token h0)
    rw [this]; decide
  · rw [c2c1Dgb_step, hv, h1', h2']; rfl

theorem sum_island (hv : x.valid_i = true) (h : carries .island (triple x)) :
    allVgb (step s x) = false ∧ anyCvalid (step s x) = false ∧ c2c1Dgb (step s x) = false := by
  obtain ⟨h0, h1, h2⟩ := h
  refine ⟨?_, ?_, ?_⟩
  · rw [allVgb_step, hv, Bool.true_and, decide_eq_false_iff_not]
    intro e
    exact terc4_not_guard h1 (congrArg Spec.Hdmi.Triple.c1 e)
  · rw [anyCvalid_step, hv]
    have e0 : decide (x.data_in0.raw ∈ tokens) = false := decide_eq_false (terc4_not_token h0)
    have e1 : decide (x.data_in1.raw ∈ tokens) = false := decide_eq_false (terc4_not_token h1)
    have e2 : decide (x.data_in2.raw ∈ tokens) = false := decide_eq_false (terc4_not_token h2)
    rw [e0, e1, e2]; rfl
  · rw [c2c1Dgb_step, hv]
    have : decide (x.data_in2.raw = dataGuard) = false := decide_eq_false (terc4_not_guard h2)
    rw [this]; rfl

theorem code_preamble (hv : x.valid_i = true) (h : islandPreamble (triple x)) :
    ctlCode (step s x) = 0b0101#4 := by
  have h1 : x.data_in1.raw = 0b0010101011#10 := h.1
  have h2 : x.data_in2.raw = 0b0010101011#10 := h.2
  simp only [ctlCode, step, hv, h1, h2, c_token]
  rfl

/-! ## The FSM follows the phases -/

/-- FSM states that may hold after a control word (from the second one on). -/
def blank (f : Fsm) : Prop := f = .init ∨ f = .preamT4 ∨ f = .preamVid

/-- What the FSM holds two clocks after the word of clock `t`. -/
def Follows (ph : Nat → Hdmi.Phase) (w : Nat → Hdmi.Triple) (n0 t : Nat) (c : BitVec 4) (f : Fsm) :
    Prop :=
  match ph t with
  | .control => (blank f ∧ (f = .preamVid → c = 0b0001#4) ∧
      (n0 + 2 ≤ t → ph (t - 1) = .control → ph (t - 2) = .control → islandPreamble (w (t - 1)) →
        islandPreamble (w t) → f = .preamT4) ∧
      ¬ (ph (t - 1) = .pixel ∧ ∀ u, u + 1 ≤ t → (∀ v, u ≤ v → v + 1 ≤ t → ph v = .pixel) →
        w u = Spec.Hdmi.videoGuard)) ∨
      (f = .video ∧ n0 + 2 ≤ t ∧ ph (t - 1) = .pixel ∧
        ∀ u, u + 1 ≤ t → (∀ v, u ≤ v → v + 1 ≤ t → ph v = .pixel) →
          w u = Spec.Hdmi.videoGuard)
  | .videoGuard => f = .goingVid
  | .pixel => f = .goingVid ∧ (∀ u, u ≤ t → (∀ v, u ≤ v → v ≤ t → ph v = .pixel) →
        w u = Spec.Hdmi.videoGuard) ∨
      f = .video ∧ ∃ u, u ≤ t ∧ (∀ v, u ≤ v → v ≤ t → ph v = .pixel) ∧ w u ≠ Spec.Hdmi.videoGuard
  | .islandLead => f = .goingT4
  | .island => f = .terc4
  | .islandTrail => f = .leaveT4

/-- After two control words the FSM is in a blanking state, whatever it was doing before. -/
theorem blank_two (s : State) (x y : In) (hx : x.valid_i = true) (hy : y.valid_i = true)
    (cx : carries .control (triple x)) (cy : carries .control (triple y)) :
    let s1 := step (step s x) y
    blank (nextFsm s1) ∧ (nextFsm s1 = .preamVid → ctlCode s1 = 0b0001#4) := by
  intro s1
  obtain ⟨a1, b1, c1⟩ := sum_control (s := s) hx cx
  obtain ⟨a2, b2, c2⟩ := sum_control (s := step s x) hy cy
  have hf : s1.fsm = nextFsm (step s x) := rfl
  have hne : s1.fsm = .init ∨ s1.fsm = .preamT4 ∨ s1.fsm = .preamVid ∨ s1.fsm = .terc4 ∨
      s1.fsm = .video := by
    rw [hf]
    unfold nextFsm
    simp only [a1, b1, c1, if_true, Bool.false_eq_true, if_false]
    split
    · split
      · simp
      · split <;> simp
    · split <;> simp
    · simp
    · simp
    · simp
    · split <;> simp
    · simp
    · simp
  unfold nextFsm blank
  simp only [s1, a2, b2, c2, if_true, Bool.false_eq_true, if_false] at *
  rcases hne with h | h | h | h | h <;> simp only [h]
  · split
    · simp
    · split
      · rename_i h'; simp [h']
      · simp
  · split <;> simp
  · split
    · rename_i h'; simp [h']
    · simp
  · simp
  · simp


theorem follows_step (s0 : State) (xs : Nat → In) (ph : Nat → Hdmi.Phase) (n0 : Nat)
    (hs : Sends ph (fun t => triple (xs t)) n0) (hv : ∀ t, n0 ≤ t → (xs t).valid_i = true)
    (t : Nat) (ht : n0 + 1 ≤ t)
    (ih : Follows ph (fun t => triple (xs t)) n0 t (ctlCode (trace step s0 xs (t + 1)))
      (trace step s0 xs (t + 2)).fsm) :
    Follows ph (fun t => triple (xs t)) n0 (t + 1) (ctlCode (trace step s0 xs (t + 2)))
      (trace step s0 xs (t + 3)).fsm := by
  have hn : (trace step s0 xs (t + 3)).fsm = nextFsm (trace step s0 xs (t + 2)) := rfl
  have he : trace step s0 xs (t + 2) = step (trace step s0 xs (t + 1)) (xs (t + 1)) := rfl
  have hfo := hs.next t (by omega)
  have hw := hs.word (t + 1) (by omega)
  have hv1 := hv (t + 1) (by omega)
  have hpre := hs.preamble t (by omega)
  rw [hn]
  generalize hS : trace step s0 xs (t + 2) = S at *
  unfold Follows at ih ⊢
  have hc : ∀ h : ph (t + 1) = .control, allVgb S = false ∧ anyCvalid S = true ∧
      c2c1Dgb S = false := by
    intro h; rw [h] at hw; rw [he]; exact sum_control hv1 hw
  have hg : ∀ h : ph (t + 1) = .videoGuard, allVgb S = true ∧ ctlCode S = 0#4 := by
    intro h; rw [h] at hw; rw [he]; exact sum_videoGuard hv1 hw
  have hp : ∀ h : ph (t + 1) = .pixel,
      allVgb S = decide (triple (xs (t + 1)) = Spec.Hdmi.videoGuard) ∧ anyCvalid S = false := by
    intro h; rw [h] at hw; rw [he]; exact sum_pixel hv1 hw
  have hl : ∀ h : ph (t + 1) = .islandLead ∨ ph (t + 1) = .islandTrail, allVgb S = false ∧
      anyCvalid S = false ∧ c2c1Dgb S = true := by
    intro h
    rw [he]
    refine sum_guard hv1 ?_
    rcases h with h | h <;> rw [h] at hw <;> exact hw
  have hi : ∀ h : ph (t + 1) = .island, allVgb S = false ∧ anyCvalid S = false ∧
      c2c1Dgb S = false := by
    intro h; rw [h] at hw; rw [he]; exact sum_island hv1 hw
  cases h0 : ph t <;> cases h1 : ph (t + 1) <;> rw [h0, h1] at hfo <;>
    first | exact absurd hfo (by decide) | skip
  all_goals simp only [h0] at ih
  all_goals simp only []
  · -- control, control
    obtain ⟨a, b, c⟩ := hc h1
    left
    have last : ¬ (ph (t + 1 - 1) = .pixel ∧ ∀ u, u + 1 ≤ t + 1 →
        (∀ v, u ≤ v → v + 1 ≤ t + 1 → ph v = .pixel) →
          triple (xs u) = Spec.Hdmi.videoGuard) := by
      rw [Nat.add_sub_cancel, h0]; simp
    rcases ih with ⟨i1, i2, -, -⟩ | ⟨f, -, hpx, -⟩
    · refine ⟨?_, ?_, ?_, last⟩
      · unfold blank nextFsm
        rcases i1 with f | f | f <;> simp only [f, a, c, Bool.false_eq_true, if_false]
        · split
          · simp
          · split <;> simp
        · split <;> simp
        · split <;> simp
      · unfold nextFsm
        rcases i1 with f | f | f <;> simp only [f, a, c, Bool.false_eq_true, if_false]
        · split
          · simp
          · split
            · simp_all
            · simp
        · split <;> simp
        · split
          · simp_all
          · simp
      · intro _ _ _ p0 p1
        have k0 : ctlCode (trace step s0 xs (t + 1)) = 0b0101#4 := by
          rw [trace_succ]; exact code_preamble (hv t (by omega)) p0
        have k1 : ctlCode S = 0b0101#4 := by rw [he]; exact code_preamble hv1 p1
        unfold nextFsm
        rcases i1 with f | f | f
        · simp [f, a, k1]
        · simp [f, a, c, k1]
        · have := i2 f
          rw [k0] at this
          exact absurd this (by decide)
    · have hn : nextFsm S = .init := by simp [nextFsm, f, b]
      refine ⟨.inl hn, fun h => absurd (hn.symm.trans h) (by decide), fun _ _ h2 => ?_, last⟩
      rw [show t + 1 - 2 = t - 1 by omega, hpx] at h2
      cases h2
  · -- control, video guard
    obtain ⟨a, k⟩ := hg h1
    rcases ih with ⟨i1, -⟩ | ⟨-, h2, hpx, -⟩
    · unfold nextFsm
      rcases i1 with f | f | f <;> simp [f, a, k]
    · have := hs.blanking (t - 1) (by omega) (by rw [hpx]; simp)
        (by rw [show t - 1 + 1 = t by omega]; exact h0)
      rw [show t - 1 + 2 = t + 1 by omega, h1] at this
      cases this
  · -- control, leading guard
    obtain ⟨a, -, c⟩ := hl (.inl h1)
    obtain ⟨q, q'⟩ := hpre h0 h1
    obtain ⟨u1, v1⟩ := q' t (by omega) (by omega)
    obtain ⟨u2, v2⟩ := q' (t - 1) (by omega) (by omega)
    obtain ⟨u3, -⟩ := q' (t - 2) (by omega) (by omega)
    rcases ih with ⟨-, -, i3, -⟩ | ⟨-, -, hpx, -⟩
    · have f := i3 q u2 u3 v2 v1
      simp [nextFsm, f, a, c]
    · rw [u2] at hpx; cases hpx
  · -- video guard, video guard
    obtain ⟨a, -⟩ := hg h1
    simp [nextFsm, ih, a]
  · -- video guard, pixel
    obtain ⟨a, -⟩ := hp h1
    simp only [nextFsm, ih, a]
    by_cases hgd : triple (xs (t + 1)) = Spec.Hdmi.videoGuard
    · left
      refine ⟨by simp [hgd], fun u hu hall => ?_⟩
      rcases Nat.lt_or_ge t u with h | h
      · rw [show u = t + 1 by omega]; exact hgd
      · exact absurd (hall t h (by omega)) (by rw [h0]; simp)
    · right
      refine ⟨by simp [hgd], t + 1, Nat.le_refl _, fun v h2 h3 => ?_, hgd⟩
      rw [show v = t + 1 by omega]; exact h1
  · -- pixel, control
    obtain ⟨a, b, c⟩ := hc h1
    rcases ih with ⟨f, hall⟩ | ⟨f, u0, hu0, hr, hne⟩
    · right
      refine ⟨by simp [nextFsm, f, a], by omega, h0, fun u hu hv => ?_⟩
      exact hall u (by omega) fun v h2 h3 => hv v h2 (by omega)
    · left
      have hn : nextFsm S = .init := by simp [nextFsm, f, b]
      refine ⟨.inl hn, fun h => absurd (hn.symm.trans h) (by decide), fun _ h => ?_, fun h => ?_⟩
      · rw [Nat.add_sub_cancel, h0] at h; cases h
      · exact hne (h.2 u0 (by omega) fun v h2 h3 => hr v h2 (by omega))
  · -- pixel, pixel
    obtain ⟨a, b⟩ := hp h1
    rcases ih with ⟨f, hall⟩ | ⟨f, u0, hu0, hr, hne⟩
    · by_cases hgd : triple (xs (t + 1)) = Spec.Hdmi.videoGuard
      · left
        refine ⟨by simp [nextFsm, f, a, hgd], fun u hu hv => ?_⟩
        rcases Nat.lt_or_ge t u with h | h
        · rw [show u = t + 1 by omega]; exact hgd
        · exact hall u h fun v h2 h3 => hv v h2 (by omega)
      · right
        refine ⟨by simp [nextFsm, f, a, hgd], t + 1, Nat.le_refl _, fun v h2 h3 => ?_, hgd⟩
        rw [show v = t + 1 by omega]; exact h1
    · right
      refine ⟨by simp [nextFsm, f, b], u0, by omega, fun v h2 h3 => ?_, hne⟩
      rcases Nat.lt_or_ge t v with h | h
      · rw [show v = t + 1 by omega]; exact h1
      · exact hr v h2 h
  · -- lead, lead
    obtain ⟨-, -, c⟩ := hl (.inl h1)
    simp [nextFsm, ih, c]
  · -- lead, island
    obtain ⟨-, -, c⟩ := hi h1
    simp [nextFsm, ih, c]
  · -- island, island
    obtain ⟨a, b, c⟩ := hi h1
    simp [nextFsm, ih, a, b, c]
  · -- island, trail
    obtain ⟨a, b, c⟩ := hl (.inr h1)
    simp [nextFsm, ih, a, b, c]
  · -- trail, control
    obtain ⟨a, b, c⟩ := hc h1
    left
    have hn : nextFsm S = .init := by simp [nextFsm, ih, c]
    refine ⟨.inl hn, fun h => absurd (hn.symm.trans h) (by decide), fun _ h => ?_, fun h => ?_⟩
    · rw [Nat.add_sub_cancel, h0] at h; cases h
    · have h' := h.1
      rw [Nat.add_sub_cancel, h0] at h'; cases h'
  · -- trail, trail
    obtain ⟨-, -, c⟩ := hl (.inr h1)
    simp [nextFsm, ih, c]

theorem follows_all (s0 : State) (xs : Nat → In) (ph : Nat → Hdmi.Phase) (n0 : Nat)
    (hs : Sends ph (fun t => triple (xs t)) n0) (hv : ∀ t, n0 ≤ t → (xs t).valid_i = true)
    (t : Nat) (ht : n0 + 1 ≤ t) :
    Follows ph (fun t => triple (xs t)) n0 t (ctlCode (trace step s0 xs (t + 1)))
      (trace step s0 xs (t + 2)).fsm := by
  induction t with
  | zero => omega
  | succ t ih =>
    rcases Nat.lt_or_ge n0 t with h | h
    · exact follows_step s0 xs ph n0 hs hv t h (ih h)
    · have : t = n0 := by omega
      subst this
      have c0 := hs.word t (Nat.le_refl _)
      have c1 := hs.word (t + 1) (by omega)
      rw [hs.first] at c0
      rw [hs.second] at c1
      obtain ⟨b1, b2⟩ := blank_two (trace step s0 xs t) (xs t) (xs (t + 1)) (hv t (Nat.le_refl _))
        (hv (t + 1) (by omega)) c0 c1
      unfold Follows
      rw [hs.second]
      left
      refine ⟨b1, b2, by omega, fun h => ?_⟩
      have h' := h.1
      rw [Nat.add_sub_cancel, hs.first] at h'; cases h'

end Verif.Terc4
