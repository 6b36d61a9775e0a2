import Verif.Proofs.CharSync
import Verif.Props.Tmds

/-!
# C05, C06, C07, C52: character alignment
-/

namespace Verif.Props

open Spec.Tmds Spec.Serial

/-- Registers of a `CharSync(required_controls=req)` at clock `t`, fed by a deserialiser
that cuts the serial stream `bits` into groups of ten. -/
def charSync (req : Nat) (bits : Nat → Bool) (t : Nat) : CharSync.State :=
  trace (CharSync.step req) CharSync.reset (deserialised bits) t

/-- The same starting with registers `s0`. -/
def charSyncFrom (req : Nat) (s0 : CharSync.State) (bits : Nat → Bool) (t : Nat) : CharSync.State :=
  trace (CharSync.step req) s0 (deserialised bits) t

/-- **C05** If the serial stream, after anything, carries `req + 2` control tokens in a row
(words `n0 .. n0+req+1`) at bit offset `k` and TMDS words from then on, then from clock
`n0+req+3` on CharSync reports `synced` with position `k` and its output is exactly the
transmitted word sequence.  This holds whatever the registers contain at the start (with the default
`req = 8` the counter has three bits, so that none of its values exceeds `req - 1`). -/
theorem C05_acquisition_any (req : Nat) (s0 : CharSync.State)
    (hs0 : s0.control_counter ≤ req - 1) (bits : Nat → Bool) (k n0 : Nat) (hk : k < 10)
    (hreq : 4 ≤ req)
    (htok : ∀ n, n0 ≤ n → n ≤ n0 + req + 1 → wordAt bits (k + 10 * n) ∈ tokens)
    (hgood : TmdsFrom (fun n => wordAt bits (k + 10 * n)) n0)
    (t : Nat) (ht : n0 + req + 2 ≤ t) :
    (charSyncFrom req s0 bits (t + 1)).synced = true ∧
    (charSyncFrom req s0 bits (t + 1)).word_sel = k ∧
    (charSyncFrom req s0 bits (t + 2)).data = wordAt bits (k + 10 * t) := by
  obtain ⟨h1, h2⟩ := CharSync.acquires req s0 bits k n0 hs0 hk (by omega) htok
  have h3 := CharSync.stays_locked req s0 bits k n0 (n0 + req + 3) hs0 hk hreq hgood (by omega)
    (by omega) h2 h1 (t + 1 - (n0 + req + 3))
  have e : n0 + req + 3 + (t + 1 - (n0 + req + 3)) = t + 1 := by omega
  rw [e] at h3
  refine ⟨h3.2, h3.1, ?_⟩
  have h4 := CharSync.run_data req s0 bits t (by rw [h3.1]; exact hk)
  rw [h3.1] at h4
  exact h4

/-- **C109** The same when only some of the later words are TMDS words: with eight or more required
tokens, three in a row among any seven words suffice, and the others may be anything. -/
theorem C109_alignment (req : Nat) (s0 : CharSync.State)
    (hs0 : s0.control_counter ≤ req - 1) (bits : Nat → Bool) (k n0 : Nat) (hk : k < 10)
    (hreq : 8 ≤ req)
    (htok : ∀ n, n0 ≤ n → n ≤ n0 + req + 1 → wordAt bits (k + 10 * n) ∈ tokens)
    (hgood : TmdsOften (fun n => wordAt bits (k + 10 * n)) n0)
    (t : Nat) (ht : n0 + req + 2 ≤ t) :
    (charSyncFrom req s0 bits (t + 1)).synced = true ∧
    (charSyncFrom req s0 bits (t + 1)).word_sel = k ∧
    (charSyncFrom req s0 bits (t + 2)).data = wordAt bits (k + 10 * t) := by
  obtain ⟨h1, h2⟩ := CharSync.acquires req s0 bits k n0 hs0 hk (by omega) htok
  have h3 := CharSync.stays_locked_often req s0 bits k n0 (n0 + req + 3) hs0 hk hreq hgood (by omega)
    (by omega) h2 h1 (t + 1 - (n0 + req + 3))
  have e : n0 + req + 3 + (t + 1 - (n0 + req + 3)) = t + 1 := by omega
  rw [e] at h3
  refine ⟨h3.2, h3.1, ?_⟩
  have h4 := CharSync.run_data req s0 bits t (by rw [h3.1]; exact hk)
  rw [h3.1] at h4
  exact h4

/-- **C05** From reset. -/
theorem C05_acquisition (req : Nat) (bits : Nat → Bool) (k n0 : Nat) (hk : k < 10)
    (hreq : 4 ≤ req)
    (htok : ∀ n, n0 ≤ n → n ≤ n0 + req + 1 → wordAt bits (k + 10 * n) ∈ tokens)
    (hgood : TmdsFrom (fun n => wordAt bits (k + 10 * n)) n0)
    (t : Nat) (ht : n0 + req + 2 ≤ t) :
    (charSync req bits (t + 1)).synced = true ∧ (charSync req bits (t + 1)).word_sel = k ∧
    (charSync req bits (t + 2)).data = wordAt bits (k + 10 * t) :=
  C05_acquisition_any req CharSync.reset (Nat.zero_le _) bits k n0 hk hreq htok hgood t ht

/-- **C05** The lock itself needs nothing but the run of tokens: whatever precedes or
follows them. -/
theorem C05_lock (req : Nat) (bits : Nat → Bool) (k n0 : Nat) (hk : k < 10) (hreq : 1 ≤ req)
    (htok : ∀ n, n0 ≤ n → n ≤ n0 + req + 1 → wordAt bits (k + 10 * n) ∈ tokens) :
    (charSync req bits (n0 + req + 3)).synced = true ∧
    (charSync req bits (n0 + req + 3)).word_sel = k :=
  CharSync.acquires req CharSync.reset bits k n0 (Nat.zero_le _) hk hreq htok

/-- **C06** On a stream of TMDS words received from reset at offset `k` (after any `k` lead
bits), CharSync never selects another offset. -/
theorem C06_no_false_lock (req : Nat) (hreq : 6 ≤ req) (k : Nat) (hk : k < 10)
    (lead : Nat → Bool) (w : Nat → BitVec 10) (hw : TmdsFrom w 0) (t : Nat)
    (hs : (charSync req (serialise k lead w) t).synced = true) :
    (charSync req (serialise k lead w) t).word_sel = k := by
  obtain ⟨u, -, hl, hsel⟩ := CharSync.synced_origin req CharSync.reset _ t rfl hs
  have hg : TmdsFrom (fun n => wordAt (serialise k lead w) (k + 10 * n)) 0 := by
    have : (fun n => wordAt (serialise k lead w) (k + 10 * n)) = w := by
      funext n; exact CharSync.wordAt_serialise k lead w n
    rw [this]; exact hw
  have hu := CharSync.lock_late req _ u hl
  show (CharSync.run req CharSync.reset (serialise k lead w) t).word_sel = k
  rw [hsel]
  exact CharSync.lock_correct req CharSync.reset _ k 0 u (Nat.zero_le _) hk (by omega) hg (by omega) (by omega) hl

/-- Blanking lasts at least two clocks (every DVI/HDMI mode has far longer blanking). -/
def NoIsolatedBlanking (i : Nat → Encoder.In) (t0 : Nat) : Prop :=
  ∀ t, t0 ≤ t → (i (t + 1)).de = false → (i t).de = false ∨ (i (t + 2)).de = false

theorem encoder_tmds (i : Nat → Encoder.In) (t0 : Nat) (h : NoIsolatedBlanking i t0)
    (h0 : (i t0).de = false → t0 = 0 ∨ (i (t0 + 1)).de = false) :
    TmdsFrom (encoderOut i) (t0 + 4) := by
  intro n hn
  obtain ⟨m, rfl⟩ : ∃ m, n = m + 4 := ⟨n - 4, by omega⟩
  have htok : ∀ m, (i m).de = false → encoderOut i (m + 4) ∈ tokens := by
    intro m hm
    exact List.mem_of_getElem? (C03_control_words i m hm)
  cases hde : (i m).de
  · left
    refine ⟨htok m hde, ?_⟩
    by_cases hm : m = t0
    · subst hm
      rcases h0 hde with rfl | h1
      · left; exact ⟨by omega, by
          show encoderOut i 3 ∈ tokens
          have : encoderOut i 3 = Encoder.controlToken 0 := rfl
          rw [this]; decide⟩
      · right; exact htok (m + 1) h1
    · obtain ⟨q, rfl⟩ : ∃ q, m = q + 1 := ⟨m - 1, by omega⟩
      rcases h q (by omega) hde with h1 | h1
      · left; exact ⟨by omega, htok q h1⟩
      · right; exact htok (q + 2) h1
  · right; exact (C03_data_words i m hde).2.2

theorem encoder_tmds_zero (i : Nat → Encoder.In) (h : NoIsolatedBlanking i 0) :
    TmdsFrom (encoderOut i) 0 := by
  intro n _
  have h1 : encoderOut i 1 ∈ tokens := by
    have : encoderOut i 1 = Encoder.controlToken 0 := rfl
    rw [this]; decide
  have h2 : encoderOut i 2 ∈ tokens := by
    have : encoderOut i 2 = Encoder.controlToken 0 := rfl
    rw [this]; decide
  have h3 : encoderOut i 3 ∈ tokens := by
    have : encoderOut i 3 = Encoder.controlToken 0 := rfl
    rw [this]; decide
  match n with
  | 0 => right; show transitionsBelow 0#10 10 ≤ 5; decide +kernel
  | 1 => left; exact ⟨h1, Or.inr h2⟩
  | 2 => left; exact ⟨h2, Or.inr h3⟩
  | 3 => left; exact ⟨h3, Or.inl ⟨by omega, h2⟩⟩
  | m + 4 => exact encoder_tmds i 0 h (fun _ => Or.inl rfl) (m + 4) (by omega)

/-- **C06** for the words of an actual `Encoder`: whatever the pixels, as long as blanking
lasts at least two clocks, no wrong offset is ever selected (default `required_controls`). -/
theorem C06_no_false_lock_encoder (k : Nat) (hk : k < 10) (lead : Nat → Bool)
    (i : Nat → Encoder.In) (h : NoIsolatedBlanking i 0) (t : Nat)
    (hs : (charSync 8 (serialise k lead (encoderOut i)) t).synced = true) :
    (charSync 8 (serialise k lead (encoderOut i)) t).word_sel = k :=
  C06_no_false_lock 8 (by omega) k hk lead _ (encoder_tmds_zero i h) t hs

/-- **C52** Pixels sent through an Encoder, received at any bit offset `k` and passed through
CharSync and Decoding come out unchanged (7 clocks after they went in) from the first word
after a blanking period of `required_controls + 2` clocks `n0 .. n0+req+1`, whatever was
received before. -/
theorem C52_link (req : Nat) (hreq : 4 ≤ req) (k : Nat) (hk : k < 10) (lead : Nat → Bool)
    (i : Nat → Encoder.In) (v : Nat → Bool) (n0 : Nat)
    (hblank : ∀ n, n0 ≤ n → n ≤ n0 + req + 1 → (i n).de = false)
    (hiso : NoIsolatedBlanking i n0) (t : Nat) (ht : n0 + req + 2 ≤ t) :
    let rx := decoderOut v (fun u => (charSync req (serialise k lead (encoderOut i)) u).data)
    (rx (t + 7)).de = (i t).de ∧
    ((i t).de = true → (rx (t + 7)).d = (i t).d) ∧
    ((i t).de = false → (rx (t + 7)).c = (i t).c) := by
  intro rx
  have hw : (fun n => wordAt (serialise k lead (encoderOut i)) (k + 10 * n)) = encoderOut i := by
    funext n; exact CharSync.wordAt_serialise k lead _ n
  have hdat := (C05_acquisition req (serialise k lead (encoderOut i)) k (n0 + 4) hk hreq
    (by
      intro n h1 h2
      rw [CharSync.wordAt_serialise]
      obtain ⟨m, rfl⟩ : ∃ m, n = m + 4 := ⟨n - 4, by omega⟩
      exact List.mem_of_getElem? (C03_control_words i m (hblank m (by omega) (by omega))))
    (by
      rw [hw]
      exact encoder_tmds i n0 hiso (fun _ => Or.inr (hblank (n0 + 1) (by omega) (by omega))))
    (t + 4) (by omega)).2.2
  rw [CharSync.wordAt_serialise] at hdat
  have hrx : rx (t + 7) = Decoding.step (rx (t + 6)) ⟨v (t + 6), encoderOut i (t + 4)⟩ := by
    show Decoding.step (rx (t + 6)) ⟨v (t + 6), _⟩ = _
    rw [← hdat]
  rw [hrx]
  obtain ⟨a, b, c, -⟩ := decode_step (rx (t + 6)) (v (t + 6)) i t
  exact ⟨a, b, c⟩

/-- 14 clocks of blanking, then a line of pixels, then blanking, repeated. -/
def sampleLine (t : Nat) : Encoder.In :=
  { d := BitVec.ofNat 8 (t * 91 + 5), c := BitVec.ofNat 2 (t / 3), de := t % 40 ≥ 14 }

example : ∀ n, 0 ≤ n → n ≤ 0 + 8 + 1 → (sampleLine n).de = false := by
  intro n _ h; simp [sampleLine]; omega

example : NoIsolatedBlanking sampleLine 0 := by
  intro t _ h; simp [sampleLine] at *; omega

/-- Offset 3: the pixel of clock 20 comes out at clock 27. -/
example : (decoderOut (fun _ => true)
      (fun u => (charSync 8 (serialise 3 (fun _ => true) (encoderOut sampleLine)) u).data) 27).d
    = (sampleLine 20).d ∧ (sampleLine 20).d = 33#8 := by decide +kernel

/-- **C07**, the property as stated: when no control token is present any more in the stream
at any bit position, `synced` is eventually lowered. -/
def C07_statement : Prop :=
  ∀ (bits : Nat → Bool) (T : Nat), (charSync 8 bits T).synced = true →
    (∀ p, 10 * T ≤ p → wordAt bits p ∉ tokens) → ∃ t, T ≤ t ∧ (charSync 8 bits t).synced = false

/-- The property does not hold: `synced` is never lowered. -/
theorem C07_violated : ¬ C07_statement := by
  intro h
  -- twelve tokens, then silence
  let bits : Nat → Bool := fun p => if p < 120 then (0b1101010100#10).getLsbD (p % 10) else false
  have hs : (charSync 8 bits 13).synced = true :=
    (C05_lock 8 bits 0 0 (by omega) (by omega) (by
      intro n _ hn
      have hn : n ≤ 9 := by omega
      have : ∀ n : Fin 10, wordAt bits (0 + 10 * n.val) ∈ tokens := by decide +kernel
      exact this ⟨n, by omega⟩)) |>.1 |> fun h11 => CharSync.synced_sticky 8 CharSync.reset bits 11 2 h11
  obtain ⟨t, ht, hf⟩ := h bits 13 hs (by
    intro p hp
    have : wordAt bits p = 0 := by
      apply BitVec.eq_of_getLsbD_eq
      intro j hj
      rw [CharSync.getLsbD_wordAt _ _ _ hj]
      simp only [bits]
      rw [if_neg (by omega)]; simp
    rw [this]; decide)
  have h2 := CharSync.synced_sticky 8 CharSync.reset bits 13 (t - 13) hs
  have e : 13 + (t - 13) = t := by omega
  rw [e] at h2
  have : (charSync 8 bits t).synced = true := h2
  rw [this] at hf; cases hf

/-- **C07 (partial)** What `synced` does mean: at some earlier point `req - 1` control tokens
in a row were received at the selected offset (a further match may have included the reset
content of the input register).  Missing: it is never lowered (`C07_violated`). -/
theorem C07_synced_partial (req : Nat) (hreq : 2 ≤ req) (bits : Nat → Bool) (t : Nat)
    (hs : (charSync req bits t).synced = true) :
    (charSync req bits t).word_sel < 10 ∧ ∃ n, n + req ≤ t ∧
      ∀ j, j + 1 < req → wordAt bits ((charSync req bits t).word_sel + 10 * (n + j)) ∈ tokens := by
  obtain ⟨u, hu, hl, hsel⟩ := CharSync.synced_origin req CharSync.reset bits t rfl hs
  have hu' := CharSync.lock_late req bits u hl
  obtain ⟨h1, h2⟩ := CharSync.lock_history req CharSync.reset bits u (Nat.zero_le _) (by omega) hl
  have hsel' : (charSync req bits t).word_sel = (CharSync.run req CharSync.reset bits u).control_position := hsel
  rw [hsel']
  refine ⟨h1, u - req, ?_, ?_⟩
  · omega
  · intro j hj
    have h3 := h2 (req - 2 - j) (by omega) (by omega)
    have e : 10 * (u - 1 - (req - 2 - j)) + (CharSync.run req CharSync.reset bits u).control_position =
      ((CharSync.run req CharSync.reset bits u).control_position + 10 * (u - req + j)) + 10 := by omega
    rw [e, CharSync.wordAt_seen] at h3
    exact h3

end Verif.Props
