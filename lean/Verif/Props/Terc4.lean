import Verif.Proofs.Terc4
import Verif.Props.Tmds

/-!
# HDMI period decoding: properties

`(trace step s0 x t)` are the registers of `DecodeTERC4` at clock `t` when the channels carry the
words `x 0, x 1, ...`.  The FSM reacts to the word of clock `t` at clock `t + 2`.
-/

namespace Verif.Props

open Terc4
open Spec.Hdmi (Phase Triple Sends Seen GuardLine)
open Spec.Tmds (tokens)

/-- **C22** Video and data-island flags exclude each other in every state. -/
theorem C22_exclusive (s : Terc4.State) :
    ¬ (deHdmi s = true ∧ encodingTerc4 s = true) ∧
    (encryptingData s = true → encodingTerc4 s = true) ∧ encryptingVideo s = deHdmi s := by
  refine ⟨?_, ?_, rfl⟩ <;> cases h : s.fsm <;> simp [deHdmi, encodingTerc4, encryptingData, h]

/-- A valid control word on some channel at clock `t`. -/
def controlAt (x : Nat → Terc4.In) (t : Nat) : Prop :=
  (x t).valid_i = true ∧
    ((x t).data_in0.raw ∈ tokens ∨ (x t).data_in1.raw ∈ tokens ∨ (x t).data_in2.raw ∈ tokens)

/-- A valid video guard band on all three channels at clock `t`. -/
def guardAt (x : Nat → Terc4.In) (t : Nat) : Prop :=
  (x t).valid_i = true ∧ (x t).data_in0.raw = 0b1011001100#10 ∧
    (x t).data_in1.raw = 0b0100110011#10 ∧ (x t).data_in2.raw = 0b1011001100#10

theorem allVgb_iff (s : Terc4.State) (x : Nat → Terc4.In) (t : Nat) :
    allVgb (step s (x t)) = true ↔ guardAt x t := by
  rw [allVgb_step]
  simp [guardAt, triple, Spec.Hdmi.videoGuard]

theorem anyCvalid_iff (s : Terc4.State) (x : Nat → Terc4.In) (t : Nat) :
    anyCvalid (step s (x t)) = true ↔ controlAt x t := by
  rw [anyCvalid_step]
  simp [controlAt, or_assoc]

theorem goingVid_of (S : Terc4.State) (h : nextFsm S = .goingVid) : allVgb S = true := by
  cases hn : allVgb S
  · revert h
    unfold nextFsm
    simp only [hn, Bool.false_eq_true, if_false]
    cases S.fsm <;> simp only [] <;> (repeat' split) <;> simp
  · rfl

theorem video_of (S : Terc4.State) (h : nextFsm S = .video) :
    (S.fsm = .goingVid ∧ allVgb S = false) ∨ (S.fsm = .video ∧ anyCvalid S = false) := by
  revert h
  unfold nextFsm
  cases S.fsm <;> simp only [] <;> (repeat' split) <;> simp_all

/-- **C22** For every stream of words, valid or not: if data-enable is 1 for the word of clock `t`,
then an earlier clock `g` carried the (last word of the) video guard band, and no control word came
since.  A control word directly after the guard band, which no source sends, goes unnoticed. -/
theorem C22_enable_sound (x : Nat → Terc4.In) (t : Nat)
    (h : deHdmi (trace step Terc4.reset x (t + 2)) = true) :
    ∃ g, g < t ∧ guardAt x g ∧ ¬ guardAt x (g + 1) ∧
      ∀ u, g + 1 < u → u ≤ t → ¬ controlAt x u := by
  have key : ∀ T, ((trace step Terc4.reset x T).fsm = .goingVid →
        ∃ g, T = g + 2 ∧ guardAt x g) ∧
      ((trace step Terc4.reset x T).fsm = .video →
        ∃ g, g + 3 ≤ T ∧ guardAt x g ∧ ¬ guardAt x (g + 1) ∧
          ∀ u, g + 1 < u → u + 2 ≤ T → ¬ controlAt x u) := by
    intro T
    induction T with
    | zero => constructor <;> intro h <;> cases h
    | succ T ih =>
      cases T with
      | zero =>
        have : (trace step Terc4.reset x (0 + 1)).fsm = .init := by
          rw [trace_succ, trace_zero]
          have h : nextFsm Terc4.reset = .init := by decide
          exact h
        constructor <;> intro h <;> rw [this] at h <;> cases h
      | succ T =>
        have hn : (trace step Terc4.reset x (T + 1 + 1)).fsm =
          nextFsm (trace step Terc4.reset x (T + 1)) := rfl
        have hg : allVgb (trace step Terc4.reset x (T + 1)) = true ↔ guardAt x T :=
          allVgb_iff _ x T
        have hc : anyCvalid (trace step Terc4.reset x (T + 1)) = true ↔ controlAt x T :=
          anyCvalid_iff _ x T
        rw [hn]
        constructor
        · intro h
          exact ⟨T, rfl, hg.1 (goingVid_of _ h)⟩
        · intro h
          rcases video_of _ h with ⟨f, a⟩ | ⟨f, a⟩
          · obtain ⟨g, e, hgd⟩ := ih.1 f
            have e' : T = g + 1 := by omega
            subst e'
            refine ⟨g, by omega, hgd, fun h' => ?_, fun u h1 h2 => by omega⟩
            rw [hg.2 h'] at a; cases a
          · obtain ⟨g, e, h1, h2, h3⟩ := ih.2 f
            refine ⟨g, by omega, h1, h2, fun u hu hu' => ?_⟩
            rcases Nat.lt_or_ge u T with hlt | hge
            · exact h3 u hu (by omega)
            · rw [show u = T by omega]
              intro h'; rw [hc.2 h'] at a; cases a
  have hf : (trace step Terc4.reset x (t + 2)).fsm = .video := by
    simpa [deHdmi] using h
  obtain ⟨g, e, h1, h2, h3⟩ := (key (t + 2)).2 hf
  exact ⟨g, by omega, h1, h2, fun u hu hu' => h3 u hu (by omega)⟩

/-- **C22** (partial) When an HDMI source sends the phases `ph`, whatever was received before, the
flags at clock `t + 2` tell what the word of clock `t` was: the data-island flags are exact, and
data-enable is exact except that pixels at the beginning of a line that look like the guard band
are taken for it, and that a line consisting only of such pixels is replaced by the control word
that follows it.  Missing: data-enable for those pixels, see `C22_violated`. -/
theorem C22_periods_partial (s0 : Terc4.State) (x : Nat → Terc4.In) (ph : Nat → Phase) (n0 : Nat)
    (hs : Sends ph (fun t => triple (x t)) n0) (hv : ∀ t, n0 ≤ t → (x t).valid_i = true)
    (t : Nat) (ht : n0 + 2 ≤ t) :
    let s := trace step s0 x (t + 2)
    (deHdmi s = true ↔ (ph t = .pixel ∧ Seen ph (fun t => triple (x t)) t) ∨
      GuardLine ph (fun t => triple (x t)) (t - 1)) ∧
    (encodingTerc4 s = true ↔ ph t = .islandLead ∨ ph t = .island ∨ ph t = .islandTrail) ∧
    (encryptingData s = true ↔ ph t = .island) := by
  intro s
  have hf := follows_all s0 x ph n0 hs hv t (by omega)
  unfold Follows at hf
  have e1 : t - 1 + 1 = t := by omega
  have hgl : ∀ h : ph t ≠ .control, ¬ GuardLine ph (fun t => triple (x t)) (t - 1) := by
    intro h h'; have := h'.1; rw [e1] at this; exact h this
  have hs' : (trace step s0 x (t + 2)).fsm = s.fsm := rfl
  rw [hs'] at hf
  cases hp : ph t <;> simp only [hp] at hf
  · -- control
    rcases hf with ⟨hb, -, -, hno⟩ | ⟨hvid, -, hpx, hall⟩
    · have : ¬ GuardLine ph (fun t => triple (x t)) (t - 1) := by
        rintro ⟨-, g2, g3⟩
        refine hno ⟨g2, fun u hu hr => ?_⟩
        refine Classical.byContradiction fun hne => ?_
        exact g3 ⟨u, by omega, fun v h1 h2 => hr v h1 (by omega), hne⟩
      rcases hb with f | f | f <;> simp [deHdmi, encodingTerc4, encryptingData, f, this]
    · have : GuardLine ph (fun t => triple (x t)) (t - 1) := by
        refine ⟨by rw [e1]; exact hp, hpx, ?_⟩
        rintro ⟨u, hu, hr, hne⟩
        exact hne (hall u (by omega) fun v h1 h2 => hr v h1 (by omega))
      simp [deHdmi, encodingTerc4, encryptingData, hvid, this]
  · simp [deHdmi, encodingTerc4, encryptingData, hf, hgl (by rw [hp]; simp)]
  · -- pixel
    rcases hf with ⟨f, hall⟩ | ⟨f, h⟩
    · have : ¬ Seen ph (fun t => triple (x t)) t := by
        rintro ⟨u, hu, hr, hne⟩
        exact hne (hall u hu hr)
      simp [deHdmi, encodingTerc4, encryptingData, f, hgl (by rw [hp]; simp), this]
    · have : Seen ph (fun t => triple (x t)) t := h
      simp [deHdmi, encodingTerc4, encryptingData, f, this]
  · simp [deHdmi, encodingTerc4, encryptingData, hf, hgl (by rw [hp]; simp)]
  · simp [deHdmi, encodingTerc4, encryptingData, hf, hgl (by rw [hp]; simp)]
  · simp [deHdmi, encodingTerc4, encryptingData, hf, hgl (by rw [hp]; simp)]

/-- Every video guard band is followed by a pixel that does not look like it. -/
def PlainLines (ph : Nat → Phase) (w : Nat → Triple) (n0 : Nat) : Prop :=
  ∀ t, n0 ≤ t → ph t = .videoGuard → ph (t + 1) = .pixel → w (t + 1) ≠ Spec.Hdmi.videoGuard

/-- With plain lines every pixel is seen. -/
theorem seen_of_plain {ph : Nat → Phase} {w : Nat → Triple} {n0 : Nat} (hs : Sends ph w n0)
    (hp : PlainLines ph w n0) (t : Nat) (ht : n0 ≤ t) (hpx : ph t = .pixel) : Seen ph w t := by
  induction t with
  | zero =>
    have : n0 = 0 := by omega
    subst this
    rw [hs.first] at hpx; cases hpx
  | succ t ih =>
    rcases Nat.lt_or_ge t n0 with h | h
    · have : n0 = t + 1 := by omega
      subst this
      rw [hs.first] at hpx; cases hpx
    · have hfo := hs.next t h
      rw [hpx] at hfo
      cases hq : ph t <;> rw [hq] at hfo <;> first | exact absurd hfo (by decide) | skip
      · exact ⟨t + 1, Nat.le_refl _, fun v h1 h2 => by rw [show v = t + 1 by omega]; exact hpx,
          hp t h hq hpx⟩
      · obtain ⟨u, hu, hr, hne⟩ := ih h hq
        refine ⟨u, by omega, fun v h1 h2 => ?_, hne⟩
        rcases Nat.lt_or_ge t v with h' | h'
        · rw [show v = t + 1 by omega]; exact hpx
        · exact hr v h1 h'

/-- **C22** If no line starts with a pixel that looks like the guard band, data-enable is 1 for
exactly the pixels. -/
theorem C22_pixels_exact (s0 : Terc4.State) (x : Nat → Terc4.In) (ph : Nat → Phase) (n0 : Nat)
    (hs : Sends ph (fun t => triple (x t)) n0) (hv : ∀ t, n0 ≤ t → (x t).valid_i = true)
    (hp : PlainLines ph (fun t => triple (x t)) n0) (t : Nat) (ht : n0 + 2 ≤ t) :
    deHdmi (trace step s0 x (t + 2)) = true ↔ ph t = .pixel := by
  rw [(C22_periods_partial s0 x ph n0 hs hv t ht).1]
  constructor
  · rintro (h | h)
    · exact h.1
    · exact absurd (seen_of_plain hs hp (t - 1) (by omega) h.2.1) h.2.2
  · intro h
    exact .inl ⟨h, seen_of_plain hs hp t (by omega) h⟩

/-! ### A concrete source -/

/-- Phases of a source that repeats, every 32 clocks, a data island and a line of 8 pixels. -/
def samplePhase (t : Nat) : Phase :=
  let r := t % 32
  if r < 7 then .control else if r < 9 then .islandLead else if r < 13 then .island
  else if r < 15 then .islandTrail else if r < 19 then .control else if r < 21 then .videoGuard
  else if r < 29 then .pixel else .control

/-- Its words; `first` is the first pixel of each line. -/
def sampleWord (first : Triple) (t : Nat) : Triple :=
  let r := t % 32
  match samplePhase t with
  | .control =>
    if r < 4 then ⟨0b1101010100#10, 0b1101010100#10, 0b1101010100#10⟩
    else if r < 7 then ⟨0b0101010100#10, 0b0010101011#10, 0b0010101011#10⟩
    else if r < 19 then ⟨0b1101010100#10, 0b0010101011#10, 0b1101010100#10⟩
    else ⟨0b1010101011#10, 0b1101010100#10, 0b1101010100#10⟩
  | .videoGuard => Spec.Hdmi.videoGuard
  | .pixel => if r = 21 then first else
      ⟨BitVec.ofNat 10 (0x1F0 + r), BitVec.ofNat 10 (0x230 + r), BitVec.ofNat 10 (0x1C0 + r)⟩
  | .islandLead => ⟨0b1010001110#10, Spec.Hdmi.islandGuard, Spec.Hdmi.islandGuard⟩
  | .island => ⟨0b1011001100#10, 0b0101110001#10, 0b1011001100#10⟩
  | .islandTrail => ⟨0b1010001110#10, Spec.Hdmi.islandGuard, Spec.Hdmi.islandGuard⟩

/-- The channel record carrying a raw word and its decoded values. -/
def record (w : BitVec 10) : ChanSync.Word :=
  { raw := w, d := Decoding.dataOf w, c := 0, de := decide (w ∉ tokens) }

/-- The source as seen by the decoder. -/
def sampleIn (first : Triple) (dvi : Bool) (t : Nat) : Terc4.In :=
  { valid_i := true, data_in0 := record (sampleWord first t).c0,
    data_in1 := record (sampleWord first t).c1, data_in2 := record (sampleWord first t).c2,
    dvimode := dvi }

theorem samplePhase_mod (t : Nat) : samplePhase t = samplePhase (t % 32) := by
  simp only [samplePhase, Nat.mod_mod]

theorem sampleWord_mod (f : Triple) (t : Nat) : sampleWord f t = sampleWord f (t % 32) := by
  unfold sampleWord
  rw [← samplePhase_mod]
  simp only [Nat.mod_mod]

theorem sample_sends (f : Triple) (hf : Spec.Hdmi.carries .pixel f) :
    Sends samplePhase (sampleWord f) 0 := by
  have hm : ∀ t k, samplePhase (t + k) = samplePhase (t % 32 + k) := by
    intro t k
    rw [samplePhase_mod (t + k), samplePhase_mod (t % 32 + k)]
    congr 1; omega
  have hlt : ∀ t : Nat, t % 32 < 32 := fun t => Nat.mod_lt _ (by decide)
  refine ⟨rfl, rfl, ?_, ?_, ?_, ?_⟩
  · intro t _
    rw [samplePhase_mod t, hm t 1]
    have : ∀ r, r < 32 → Spec.Hdmi.follows (samplePhase r) (samplePhase (r + 1)) = true := by
      decide +kernel
    exact this _ (hlt t)
  · intro t _
    rw [samplePhase_mod t, hm t 1, hm t 2]
    have : ∀ r, r < 32 → samplePhase r ≠ .control → samplePhase (r + 1) = .control →
        samplePhase (r + 2) = .control := by decide +kernel
    exact this _ (hlt t)
  · intro t _
    rw [samplePhase_mod t, sampleWord_mod f t]
    have h21 : ∀ r, r < 32 → r ≠ 21 → sampleWord f r = sampleWord ⟨0, 0, 0⟩ r := by
      intro r _ hne
      unfold sampleWord
      split <;> try rfl
      rw [if_neg (by omega), if_neg (by omega)]
    have hne : ∀ r, r < 32 → r ≠ 21 →
        (match samplePhase r, sampleWord ⟨0, 0, 0⟩ r with
          | .control, w => decide (w.c0 ∈ tokens) && decide (w.c1 ∈ tokens) &&
              decide (w.c2 ∈ tokens)
          | .videoGuard, w => decide (w = Spec.Hdmi.videoGuard)
          | .pixel, w => decide (w.c0 ∉ tokens) && decide (w.c1 ∉ tokens) &&
              decide (w.c2 ∉ tokens)
          | .islandLead, w => decide (w.c0 ∈ Spec.Hdmi.terc4) &&
              decide (w.c1 = Spec.Hdmi.islandGuard) && decide (w.c2 = Spec.Hdmi.islandGuard)
          | .island, w => decide (w.c0 ∈ Spec.Hdmi.terc4) && decide (w.c1 ∈ Spec.Hdmi.terc4) &&
              decide (w.c2 ∈ Spec.Hdmi.terc4)
          | .islandTrail, w => decide (w.c0 ∈ Spec.Hdmi.terc4) &&
              decide (w.c1 = Spec.Hdmi.islandGuard) &&
              decide (w.c2 = Spec.Hdmi.islandGuard)) = true := by
      decide +kernel
    by_cases h : t % 32 = 21
    · rw [h]; exact hf
    · have := hne _ (hlt t) h
      rw [h21 _ (hlt t) h]
      revert this
      generalize samplePhase (t % 32) = p
      generalize sampleWord ⟨0, 0, 0⟩ (t % 32) = w
      intro this
      cases p <;> simpa [Spec.Hdmi.carries, and_assoc] using this
  · intro t _ h0 h1
    have hr : t % 32 = 6 := by
      rw [samplePhase_mod t] at h0
      rw [hm t 1] at h1
      have : ∀ r, r < 32 → samplePhase r = .control → samplePhase (r + 1) = .islandLead →
        r = 6 := by decide +kernel
      exact this _ (hlt t) h0 h1
    refine ⟨by omega, fun u h2 h3 => ?_⟩
    have hu : u % 32 = 4 ∨ u % 32 = 5 ∨ u % 32 = 6 := by omega
    have hp : samplePhase u = .control := by
      rw [samplePhase_mod]
      rcases hu with h | h | h <;> rw [h] <;> rfl
    refine ⟨hp, ?_⟩
    rw [sampleWord_mod]
    rcases hu with h | h | h <;> rw [h] <;> exact ⟨rfl, rfl⟩

/-- An ordinary first pixel. -/
def plainPixel : Triple := ⟨0x1F5#10, 0x235#10, 0x1C5#10⟩

theorem sample_plain : PlainLines samplePhase (fun t => triple (sampleIn plainPixel false t)) 0 := by
  intro t _ h0 h1 h
  have hw : sampleWord plainPixel (t + 1) = Spec.Hdmi.videoGuard := h
  have hr : (t + 1) % 32 = 21 := by
    rw [samplePhase_mod] at h0 h1
    have : ∀ r, r < 32 → samplePhase r = .videoGuard →
        samplePhase ((r + 1) % 32) = .pixel → (r + 1) % 32 = 21 := by decide +kernel
    have := this (t % 32) (Nat.mod_lt _ (by decide)) h0 (by
      rw [show (t % 32 + 1) % 32 = (t + 1) % 32 by omega]; exact h1)
    omega
  rw [sampleWord_mod, hr] at hw
  exact absurd hw (by decide)

/-- Non-vacuity: the source meets the hypotheses of `C22_periods_partial` and
`C22_pixels_exact`; its first pixel is enabled and the clock before is not. -/
example : Sends samplePhase (fun t => triple (sampleIn plainPixel false t)) 0 ∧
    PlainLines samplePhase (fun t => triple (sampleIn plainPixel false t)) 0 :=
  ⟨sample_sends plainPixel ⟨by decide, by decide, by decide⟩, sample_plain⟩

example : (List.range 34).map (fun t =>
      deHdmi (trace step Terc4.reset (sampleIn plainPixel false) t)) =
    List.replicate 23 false ++ List.replicate 8 true ++ List.replicate 3 false := by
  decide +kernel

/-- C22 for a conforming source: data-enable at clock `t + 2` tells whether the word of clock `t` was a
pixel. -/
def C22_statement : Prop :=
  ∀ (s0 : Terc4.State) (x : Nat → Terc4.In) (ph : Nat → Phase) (n0 : Nat),
    Sends ph (fun t => triple (x t)) n0 → (∀ t, n0 ≤ t → (x t).valid_i = true) →
    ∀ t, n0 + 2 ≤ t → (deHdmi (trace step s0 x (t + 2)) = true ↔ ph t = .pixel)

/-- **C22** is violated for pixels that look like the guard band.  An encoder that starts a line
with the colour blue 0xAB, green 0x55, red 0xAB sends exactly the video guard band, and the decoder
reports no pixel (clock 21 of the source) for it although it reports the next one. -/
theorem C22_violated : ¬ C22_statement ∧
    (let enc := fun d => encoderOut (fun t => ⟨d, 0, decide (t ≥ 3)⟩) 7
     (⟨enc 0xAB, enc 0x55, enc 0xAB⟩ : Triple) = Spec.Hdmi.videoGuard) ∧
    Sends samplePhase (fun t => triple (sampleIn Spec.Hdmi.videoGuard false t)) 0 ∧
    samplePhase 21 = .pixel ∧
    deHdmi (trace step Terc4.reset (sampleIn Spec.Hdmi.videoGuard false) 23) = false ∧
    deHdmi (trace step Terc4.reset (sampleIn Spec.Hdmi.videoGuard false) 24) = true :=
  ⟨fun h => by
      have := (h Terc4.reset (sampleIn Spec.Hdmi.videoGuard false) samplePhase 0
        (sample_sends _ ⟨by decide, by decide, by decide⟩) (fun _ _ => rfl) 21 (by omega)).2 rfl
      exact absurd this (by decide +kernel),
    by decide +kernel, sample_sends _ ⟨by decide, by decide, by decide⟩, rfl, by decide +kernel,
    by decide +kernel⟩

/-- **C77** While a data island is received each channel decoder outputs, one clock later, the
nibble that the HDMI specification assigns to the TERC4 word; other words leave it unchanged. -/
theorem C77_nibbles (k : Nat) (s : Channel.State) (valid : Bool) (w : BitVec 10) :
    (∀ n : Fin 16, Spec.Hdmi.terc4[n] = w → (Channel.step k s valid w).d = BitVec.ofNat 4 n) ∧
    (w ∉ Spec.Hdmi.terc4 → (Channel.step k s valid w).d = s.d) := by
  have hd : (Channel.step k s valid w).d = Channel.nibble s.d w := by
    unfold Channel.step
    simp only []
    repeat' split
    all_goals rfl
  rw [hd]
  constructor
  · intro n hn
    subst hn
    generalize s.d = o
    clear hd
    revert n o
    decide +kernel
  · intro hn
    have : ∀ (l : List (BitVec 10 × Nat)) (o : BitVec 4), (∀ p ∈ l, w ≠ p.1) →
        l.foldl (fun acc p => if w = p.1 then BitVec.ofNat 4 p.2 else acc) o = o := by
      intro l
      induction l with
      | nil => intros; rfl
      | cons a l ih =>
        intro o h
        rw [List.foldl_cons, if_neg (h a (by simp)), ih _ fun p hp => h p (by simp [hp])]
    refine this _ _ fun p hp h => hn ?_
    rw [h]
    clear h this hd
    revert p
    decide +kernel

example : (Channel.step 1 Channel.reset true 0b0110011100#10).d = 10#4 := by decide +kernel

/-- **C77** Each channel also reports the control bits of a control word, which guard words it received,
and nothing at all for words that are not valid. -/
theorem C77_control (k : Nat) (s : Channel.State) (w : BitVec 10) :
    (∀ n : Fin 4, tokens[n] = w → (Channel.step k s true w).c = BitVec.ofNat 2 n) ∧
    ((Channel.step k s true w).c_valid = true ↔ w ∈ tokens) ∧
    ((Channel.step k s true w).dgb = true ↔ w = Spec.Hdmi.islandGuard) ∧
    (k < 3 → ((Channel.step k s true w).vgb = true ↔
      w = [Spec.Hdmi.videoGuard.c0, Spec.Hdmi.videoGuard.c1, Spec.Hdmi.videoGuard.c2].getD k 0)) ∧
    (let s' := Channel.step k s false w
     s'.c = 0 ∧ s'.c_valid = false ∧ s'.dgb = false ∧ s'.vgb = false) := by
  refine ⟨fun n hn => ?_, by rw [cvalid_valid]; simp, ?_, fun hk => ?_, rfl, rfl, rfl, rfl⟩
  · subst hn
    match n with
    | 0 => rfl
    | 1 => rfl
    | 2 => rfl
    | 3 => rfl
  · rw [dgb_valid, decide_eq_true_iff]; exact Iff.rfl
  · rw [vgb_valid, decide_eq_true_iff]
    match k, hk with
    | 0, _ => exact Iff.rfl
    | 1, _ => exact Iff.rfl
    | 2, _ => exact Iff.rfl

example : (Channel.step 2 Channel.reset true 0b1010101011#10).c = 3#2 ∧
    (Channel.step 2 Channel.reset true Spec.Hdmi.islandGuard).dgb = true := by decide +kernel

/-! ## Data islands are announced -/

/-- If a channel remembers the control bits 01, the last control word on it was that one, and all
words since were valid. -/
theorem code_one (k : Nat) (S : Nat → Channel.State) (v : Nat → Bool) (w : Nat → BitVec 10)
    (h0 : S 0 = Channel.reset) (hs : ∀ t, S (t + 1) = Channel.step k (S t) (v t) (w t)) (T : Nat)
    (h : (S T).c = 1#2) :
    ∃ p, p < T ∧ v p = true ∧ w p = 0b0010101011#10 ∧ ∀ u, p < u → u < T → w u ∉ tokens := by
  induction T with
  | zero => rw [h0] at h; cases h
  | succ T ih =>
    rw [hs] at h
    cases hv : v T
    · rw [hv] at h; exact absurd h (by show ¬ (0#2 = 1#2); decide)
    · rw [hv] at h
      by_cases hw : w T = 0b0010101011#10
      · exact ⟨T, by omega, hv, hw, fun u h1 h2 => by omega⟩
      · have : (S T).c = 1#2 ∧ w T ∉ tokens := by
          revert h
          unfold Channel.step
          simp only [if_true]
          split
          · intro h; cases h
          split
          · rename_i h; exact absurd h hw
          split
          · intro h; cases h
          split
          · intro h; cases h
          split
          · intro h; cases h
          split
          · intro h; cases h
          · rename_i a b c d _ _
            intro h
            refine ⟨h, ?_⟩
            simp only [tokens, List.mem_cons, List.not_mem_nil, or_false, not_or]
            exact ⟨a, b, c, d⟩
        obtain ⟨p, h1, h2, h3, h4⟩ := ih this.1
        refine ⟨p, by omega, h2, h3, fun u hu hu' => ?_⟩
        rcases Nat.lt_or_ge u T with hlt | hge
        · exact h4 u hu hlt
        · rw [show u = T by omega]; exact this.2

/-- A valid data-island guard band on channels 1 and 2 at clock `t`. -/
def islandGuardAt (x : Nat → Terc4.In) (t : Nat) : Prop :=
  (x t).valid_i = true ∧ (x t).data_in1.raw = 0b0100110011#10 ∧
    (x t).data_in2.raw = 0b0100110011#10

/-- The channel carries at clock `p`, before `a`, the control word 01 of a data-island preamble, and
no other control word comes between `p` and `a`. -/
def announced (x : Nat → Terc4.In) (w : Nat → BitVec 10) (p a : Nat) : Prop :=
  p < a ∧ (x p).valid_i = true ∧ w p = 0b0010101011#10 ∧ ∀ u, p < u → u < a → w u ∉ tokens

theorem dgb_iff (s : Terc4.State) (x : Nat → Terc4.In) (t : Nat) :
    c2c1Dgb (step s (x t)) = true ↔ islandGuardAt x t := by
  rw [c2c1Dgb_step]
  simp only [Bool.and_eq_true, decide_eq_true_iff, islandGuardAt]
  exact ⟨fun ⟨a, b, c⟩ => ⟨a, c, b⟩, fun ⟨a, b, c⟩ => ⟨a, c, b⟩⟩

theorem island_of (S : Terc4.State) :
    (nextFsm S = .preamT4 → ctlCode S = 0b0101#4) ∧
    (nextFsm S = .goingT4 → c2c1Dgb S = true ∧ (S.fsm = .preamT4 ∨ S.fsm = .goingT4)) ∧
    (nextFsm S = .terc4 → S.fsm = .goingT4 ∨ (S.fsm = .terc4 ∧ anyCvalid S = false)) ∧
    (nextFsm S = .leaveT4 → c2c1Dgb S = true ∧ (S.fsm = .terc4 ∨ S.fsm = .leaveT4)) := by
  unfold nextFsm
  refine ⟨?_, ?_, ?_, ?_⟩ <;> cases S.fsm <;> simp only [] <;> (repeat' split) <;> simp_all

/-- **C22** For every stream of words, valid or not: if the data-island flag is 1 for the word of clock
`t`, then earlier each of the channels 1 and 2 carried the control word of the preamble as its last
control word before the guard band, which lasted from clock `a` to clock `b`, and no control word came
on them since, the word directly after the guard band excepted. -/
theorem C22_island_sound (x : Nat → Terc4.In) (t : Nat)
    (h : encodingTerc4 (trace step Terc4.reset x (t + 2)) = true) :
    ∃ p q a b, announced x (fun u => (x u).data_in1.raw) p a ∧
      announced x (fun u => (x u).data_in2.raw) q a ∧ a ≤ b ∧ b ≤ t ∧
      (∀ u, a ≤ u → u ≤ b → islandGuardAt x u) ∧
      ∀ u, b + 1 < u → u ≤ t → (x u).valid_i = true →
        (x u).data_in1.raw ∉ tokens ∧ (x u).data_in2.raw ∉ tokens := by
  let Pre := fun T => ∃ p q, announced x (fun u => (x u).data_in1.raw) p T ∧
    announced x (fun u => (x u).data_in2.raw) q T
  let Isl := fun b T => ∃ a, Pre a ∧ a ≤ b ∧ b + 2 ≤ T ∧ (∀ u, a ≤ u → u ≤ b → islandGuardAt x u) ∧
      ∀ u, b + 1 < u → u + 2 ≤ T → (x u).valid_i = true →
        (x u).data_in1.raw ∉ tokens ∧ (x u).data_in2.raw ∉ tokens
  have notTok : ∀ u, islandGuardAt x u → (x u).data_in1.raw ∉ tokens ∧ (x u).data_in2.raw ∉ tokens := by
    intro u h
    rw [h.2.1, h.2.2]
    decide
  have key : ∀ T, let f := (trace step Terc4.reset x (T + 1)).fsm
      (f = .preamT4 → Pre T) ∧ (f = .goingT4 → ∃ b, T + 1 = b + 2 ∧ Isl b (T + 1)) ∧
      (f = .terc4 ∨ f = .leaveT4 → ∃ b, Isl b (T + 1)) := by
    intro T
    induction T with
    | zero =>
      have : (trace step Terc4.reset x (0 + 1)).fsm = .init := by
        rw [trace_succ, trace_zero]
        have h : nextFsm Terc4.reset = .init := by decide
        exact h
      intro f
      have hf : f = .init := this
      refine ⟨?_, ?_, ?_⟩ <;> rw [hf] <;> intro h <;> (try cases h) <;> rename_i h <;> cases h
    | succ T ih =>
      intro f
      have hn : f = nextFsm (trace step Terc4.reset x (T + 1)) := rfl
      have hg : c2c1Dgb (trace step Terc4.reset x (T + 1)) = true ↔ islandGuardAt x T :=
        dgb_iff _ x T
      have hc : anyCvalid (trace step Terc4.reset x (T + 1)) = true ↔ controlAt x T :=
        anyCvalid_iff _ x T
      obtain ⟨i1, i2, i3, i4⟩ := island_of (trace step Terc4.reset x (T + 1))
      rw [← hn] at i1 i2 i3 i4
      have extend : ∀ b, Isl b (T + 1) → ((x T).valid_i = true →
          (x T).data_in1.raw ∉ tokens ∧ (x T).data_in2.raw ∉ tokens) → Isl b (T + 1 + 1) := by
        rintro b ⟨a, h1, h2, h3, h4, h5⟩ hT
        refine ⟨a, h1, h2, by omega, h4, fun u hu hu' => ?_⟩
        rcases Nat.lt_or_ge (u + 2) (T + 2) with hlt | hge
        · exact h5 u hu (by omega)
        · rw [show u = T by omega]; exact hT
      refine ⟨fun h => ?_, fun h => ?_, fun h => ?_⟩
      · have hcode := i1 h
        have hcc : (trace step Terc4.reset x (T + 1)).ch1.c = 1#2 ∧
            (trace step Terc4.reset x (T + 1)).ch2.c = 1#2 := by
          revert hcode
          unfold ctlCode
          generalize (trace step Terc4.reset x (T + 1)).ch1.c = a
          generalize (trace step Terc4.reset x (T + 1)).ch2.c = b
          revert a b
          decide
        obtain ⟨p, hp⟩ := code_one 1 (fun t => (trace step Terc4.reset x t).ch1) (fun t => (x t).valid_i)
          (fun t => (x t).data_in1.raw) rfl (fun _ => rfl) (T + 1) hcc.1
        obtain ⟨q, hq⟩ := code_one 2 (fun t => (trace step Terc4.reset x t).ch2) (fun t => (x t).valid_i)
          (fun t => (x t).data_in2.raw) rfl (fun _ => rfl) (T + 1) hcc.2
        exact ⟨p, q, hp, hq⟩
      · obtain ⟨hd, hf⟩ := i2 h
        have hd := hg.1 hd
        refine ⟨T, rfl, ?_⟩
        rcases hf with hf | hf
        · refine ⟨T, ih.1 hf, Nat.le_refl _, by omega, fun u h1 h2 => ?_, fun u h1 h2 => by omega⟩
          rw [show u = T by omega]; exact hd
        · obtain ⟨b, hb, a, h1, h2, h3, h4, h5⟩ := ih.2.1 hf
          refine ⟨a, h1, by omega, by omega, fun u h6 h7 => ?_, fun u h6 h7 => by omega⟩
          rcases Nat.lt_or_ge u T with hlt | hge
          · exact h4 u h6 (by omega)
          · rw [show u = T by omega]; exact hd
      · rcases h with h | h
        · rcases i3 h with hf | ⟨hf, hv⟩
          · obtain ⟨b, hb, a, h1, h2, h3, h4, h5⟩ := ih.2.1 hf
            exact ⟨b, a, h1, h2, by omega, h4, fun u h6 h7 => by omega⟩
          · obtain ⟨b, hb⟩ := ih.2.2 (Or.inl hf)
            refine ⟨b, extend b hb fun hval => ?_⟩
            have hno : ¬ controlAt x T := fun h' => by rw [hc.2 h'] at hv; cases hv
            exact ⟨fun h' => hno ⟨hval, Or.inr (Or.inl h')⟩, fun h' => hno ⟨hval, Or.inr (Or.inr h')⟩⟩
        · obtain ⟨hd, hf⟩ := i4 h
          obtain ⟨b, hb⟩ := ih.2.2 hf
          exact ⟨b, extend b hb fun _ => notTok T (hg.1 hd)⟩
  obtain ⟨-, k2, k3⟩ := key (t + 1)
  have hI : ∃ b, Isl b (t + 2) := by
    simp only [encodingTerc4, Bool.or_eq_true, decide_eq_true_iff, or_assoc] at h
    rcases h with h | h
    · obtain ⟨b, -, hb⟩ := k2 h; exact ⟨b, hb⟩
    · exact k3 h
  obtain ⟨b, a, ⟨p, q, hp, hq⟩, h2, h3, h4, h5⟩ := hI
  exact ⟨p, q, a, b, hp, hq, h2, by omega, h4, fun u h6 h7 => h5 u h6 (by omega)⟩

example : encodingTerc4 (trace step Terc4.reset (sampleIn plainPixel false) 10) = true := by decide +kernel

/-! ## The HDMI path of the receiver -/

/-- Whatever `DecodeTERC4` says about data-enable at clock `t + 2` accompanies, at the output of
the path one clock later, the colour received at clock `t + 1`. -/
theorem path_out (s0 : Path) (x : Nat → Terc4.In) (t : Nat) :
    let s := trace Path.step s0 x (t + 3)
    Analysis.SyncPolarity.de s.pol = deO (trace step s0.dec x (t + 2)) ∧
    s.pol.r = (x (t + 1)).data_in2.d ∧ s.pol.g = (x (t + 1)).data_in1.d ∧
    s.pol.b = (x (t + 1)).data_in0.d := by
  have hd : ∀ t, (trace Path.step s0 x t).dec = trace step s0.dec x t := by
    intro t
    induction t with
    | zero => rfl
    | succ t ih => rw [trace_succ, trace_succ, ← ih]; rfl
  refine ⟨?_, rfl, rfl, rfl⟩
  rw [← hd]
  rfl

/-- **C76** (DVI mode) With `dvimode` set, the path passes on every word with its own data-enable:
the outputs at clock `t + 3` are those of the word of clock `t + 1`. -/
theorem C76_dvi_aligned (s0 : Path) (x : Nat → Terc4.In) (t : Nat) (h : (x t).dvimode = true) :
    let s := trace Path.step s0 x (t + 3)
    Analysis.SyncPolarity.de s.pol = (x (t + 1)).data_in0.de ∧
    s.pol.r = (x (t + 1)).data_in2.d ∧ s.pol.g = (x (t + 1)).data_in1.d ∧
    s.pol.b = (x (t + 1)).data_in0.d := by
  obtain ⟨h1, h2⟩ := path_out s0 x t
  refine ⟨?_, h2⟩
  rw [h1]
  have e : (trace step s0.dec x (t + 2)).dvi1 = (x t).dvimode := rfl
  simp only [deO, e, h, if_true]
  rfl

/-- **C76** (partial: the exact behaviour, which is off by one) In HDMI mode the output at clock
`t + 3` is enabled exactly if the word of clock `t` was a pixel, but it shows the colour of the
word of clock `t + 1`. -/
theorem C76_hdmi_partial (s0 : Path) (x : Nat → Terc4.In) (ph : Nat → Phase) (n0 : Nat)
    (hs : Sends ph (fun t => triple (x t)) n0) (hv : ∀ t, n0 ≤ t → (x t).valid_i = true)
    (hp : PlainLines ph (fun t => triple (x t)) n0) (hm : ∀ t, (x t).dvimode = false)
    (t : Nat) (ht : n0 + 2 ≤ t) :
    let s := trace Path.step s0 x (t + 3)
    (Analysis.SyncPolarity.de s.pol = true ↔ ph t = .pixel) ∧
    s.pol.r = (x (t + 1)).data_in2.d ∧ s.pol.g = (x (t + 1)).data_in1.d ∧
    s.pol.b = (x (t + 1)).data_in0.d := by
  obtain ⟨h1, h2⟩ := path_out s0 x t
  refine ⟨?_, h2⟩
  rw [h1]
  have e : (trace step s0.dec x (t + 2)).dvi1 = (x t).dvimode := rfl
  simp only [deO, e, hm, Bool.false_eq_true, if_false]
  exact C22_pixels_exact s0.dec x ph n0 hs hv hp t ht

/-- C76: with some constant latency `L`, for every conforming source in HDMI mode whose lines do not begin
with a look-alike of the guard band, the output is enabled for the pixels and shows their colour. -/
def C76_statement : Prop :=
  ∃ L, ∀ (s0 : Path) (x : Nat → Terc4.In) (ph : Nat → Phase) (n0 : Nat),
    Sends ph (fun t => triple (x t)) n0 → (∀ t, n0 ≤ t → (x t).valid_i = true) →
    PlainLines ph (fun t => triple (x t)) n0 → (∀ t, (x t).dvimode = false) →
    ∀ t, n0 + 2 ≤ t →
      let s := trace Path.step s0 x (t + L)
      (Analysis.SyncPolarity.de s.pol = true ↔ ph t = .pixel) ∧
      (ph t = .pixel → s.pol.r = (x t).data_in2.d ∧ s.pol.g = (x t).data_in1.d ∧
        s.pol.b = (x t).data_in0.d)

/-- No latency aligns the colours with data-enable. -/
theorem no_latency : ¬ C76_statement := by
  rintro ⟨L, h⟩
  have hs := sample_sends plainPixel (by refine ⟨?_, ?_, ?_⟩ <;> decide)
  have hp := sample_plain
  have h1 := fun t ht => h Path.reset (sampleIn plainPixel false) samplePhase 0 hs (fun _ _ => rfl) hp
    (fun _ => rfl) t ht
  have h2 := fun t ht => C76_hdmi_partial Path.reset (sampleIn plainPixel false) samplePhase 0 hs
    (fun _ _ => rfl) hp (fun _ => rfl) t ht
  -- pixels are at the clocks 21, ..., 28 of a period of 32
  have key : ∀ t, 3 ≤ t → (samplePhase (t + L) = .pixel ↔ samplePhase (t + 3) = .pixel) := by
    intro t ht
    have a := (h2 (t + L) (by omega)).1
    have b := (h1 (t + 3) (by omega)).1
    rw [show t + L + 3 = t + 3 + L by omega] at a
    exact a.symm.trans b
  have hL : L % 32 = 3 := by
    have k1 := key 18 (by omega)
    have k2 := key 25 (by omega)
    rw [samplePhase_mod (18 + L), samplePhase_mod (18 + 3)] at k1
    rw [samplePhase_mod (25 + L), samplePhase_mod (25 + 3)] at k2
    have : ∀ l, l < 32 → (samplePhase ((18 + l) % 32) = .pixel ↔ samplePhase ((18 + 3) % 32) = .pixel) →
      (samplePhase ((25 + l) % 32) = .pixel ↔ samplePhase ((25 + 3) % 32) = .pixel) → l = 3 := by
      decide +kernel
    refine this (L % 32) (Nat.mod_lt _ (by decide)) ?_ ?_
    · rw [show (18 + L % 32) % 32 = (18 + L) % 32 by omega]; exact k1
    · rw [show (25 + L % 32) % 32 = (25 + L) % 32 by omega]; exact k2
  have a := (h2 (18 + L) (by omega)).2.1
  have b := ((h1 21 (by omega)).2 rfl).1
  rw [show 18 + L + 3 = 21 + L by omega, b] at a
  have e : (sampleIn plainPixel false (18 + L + 1)).data_in2.d =
      (sampleIn plainPixel false 22).data_in2.d := by
    show (record (sampleWord plainPixel (18 + L + 1)).c2).d = _
    rw [sampleWord_mod, show (18 + L + 1) % 32 = 22 by omega]
    rfl
  rw [e] at a
  exact absurd a (by decide +kernel)

/-- **C76** is violated: the source sends a line of 8 pixels with words `w 21, ..., w 28`; the
receiver outputs 8 pixels, but their colours are those of the words `w 22, ..., w 29`.  The first
pixel is lost, and the last one shows the control word that follows the line. -/
theorem C76_violated : ¬ C76_statement ∧
    let x := sampleIn plainPixel false
    (List.range 40).filterMap (fun t =>
      let s := trace Path.step Path.reset x t
      if Analysis.SyncPolarity.de s.pol then some (s.pol.r, s.pol.g, s.pol.b) else none) =
    [22, 23, 24, 25, 26, 27, 28, 29].map (fun t =>
      ((x t).data_in2.d, (x t).data_in1.d, (x t).data_in0.d)) ∧
    (List.range 32).filter (fun t => decide (samplePhase t = .pixel)) =
      [21, 22, 23, 24, 25, 26, 27, 28] ∧
    ((x 21).data_in2.d, (x 21).data_in1.d, (x 21).data_in0.d) ∉
      [22, 23, 24, 25, 26, 27, 28, 29].map (fun t =>
        ((x t).data_in2.d, (x t).data_in1.d, (x t).data_in0.d)) ∧
    samplePhase 29 = .control :=
  ⟨no_latency, by decide +kernel⟩

/-- In DVI mode the same source is received correctly. -/
example : let x := sampleIn plainPixel true
    (List.range 19).filterMap (fun t =>
      let s := trace Path.step Path.reset x (t + 17)
      if Analysis.SyncPolarity.de s.pol then some (s.pol.r, s.pol.g, s.pol.b) else none) =
    [19, 20, 21, 22, 23, 24, 25, 26, 27, 28].map (fun t =>
      ((x t).data_in2.d, (x t).data_in1.d, (x t).data_in0.d)) := by
  decide +kernel

end Verif.Props
