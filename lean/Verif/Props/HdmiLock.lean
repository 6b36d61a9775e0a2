import Verif.Model.HdmiMode
import Verif.Props.Receiver
import Verif.Props.Terc4

/-!
# C133: an HDMI receiver locks onto an HDMI source
-/

namespace Verif.Props

open Verif.HdmiMode Spec.Receiver Spec.Serial Spec.Tmds Verif.VideoOut
open Spec.Hdmi (Phase Triple Sends Acquire TmdsPixels CarriesSyncs LastPixel)

/-- The bits of lane `i`: the words of the source after `k i` bits of anything. -/
def hdmiBits (w : Nat → Triple) (k : Nat → Nat) (lead : Nat → Nat → Bool) (i : Nat) : Nat → Bool :=
  serialise (k i) (lead i) fun n => (w n).channel i

/-- The receiver with `hdmi=True` at clock `t`, starting with registers `s0`, when the serial line of lane `i`
carries the bits `bits i` and the `dvimode` register is `dvi`. -/
def hdmiRx (s0 : Rx) (bits : Nat → Nat → Bool) (dvi : Nat → Bool) (t : Nat) : Rx :=
  trace Rx.step s0 (fun u =>
    (⟨deserialised (bits 0) u, deserialised (bits 1) u, deserialised (bits 2) u⟩, dvi u)) t

/-- The counters of the receiver hold values that fit their width, as in `Registers`; all other registers may
hold anything. -/
structure HdmiRegisters (s : Rx) : Prop where
  counter0 : s.lane0.charsync.control_counter ≤ 7
  counter1 : s.lane1.charsync.control_counter ≤ 7
  counter2 : s.lane2.charsync.control_counter ≤ 7
  pointers : Spec.ChanSync.InRange 3 8 s.chan

/-- The part of the receiver in front of `DecodeTERC4`, with other blocks behind it. -/
def front (s : Rx) : Receiver.State :=
  { lane0 := s.lane0, lane1 := s.lane1, lane2 := s.lane2, chan := s.chan
    pol := Analysis.SyncPolarity.reset, res := Analysis.Resolution.reset }

theorem front_run (s0 : Rx) (bits : Nat → Nat → Bool) (dvi : Nat → Bool) (t : Nat) :
    (hdmiRx s0 bits dvi t).lane0 = (rxOn (front s0) bits t).lane0 ∧
    (hdmiRx s0 bits dvi t).lane1 = (rxOn (front s0) bits t).lane1 ∧
    (hdmiRx s0 bits dvi t).lane2 = (rxOn (front s0) bits t).lane2 ∧
    (hdmiRx s0 bits dvi t).chan = (rxOn (front s0) bits t).chan := by
  induction t with
  | zero => exact ⟨rfl, rfl, rfl, rfl⟩
  | succ t ih =>
    obtain ⟨h0, h1, h2, h3⟩ := ih
    refine ⟨?_, ?_, ?_, ?_⟩
    · show Receiver.Lane.step (hdmiRx s0 bits dvi t).lane0 _ = Receiver.Lane.step _ _; rw [h0]; rfl
    · show Receiver.Lane.step (hdmiRx s0 bits dvi t).lane1 _ = Receiver.Lane.step _ _; rw [h1]; rfl
    · show Receiver.Lane.step (hdmiRx s0 bits dvi t).lane2 _ = Receiver.Lane.step _ _; rw [h2]; rfl
    · show ChanSync.step 3 8 (hdmiRx s0 bits dvi t).chan (hdmiRx s0 bits dvi t).chanIn =
        ChanSync.step 3 8 _ (Receiver.chanIn _)
      rw [h3, Rx.chanIn, h0, h1, h2]; rfl

theorem chan_raw {s0 : Receiver.State} (hs0 : Registers s0) {bits : Nat → Nat → Bool} {k : Nat → Nat}
    {n0 : Nat} (he : ∀ i, i < 3 → LaneWords (k i) (bits i) n0) (i m : Nat) (hi : i < 3) (hm : n0 + 10 ≤ m) :
    (chanWord s0 bits k i m).raw = receivedWord (bits i) (k i) m := by
  have h := (lane_aligned_errors _ (laneIx_counter hs0 i) (k i) (bits i) n0 (he i hi) m hm).1
  rw [chanWord, show min i 2 = i by omega, ← h, show m + 7 + k i / 10 = m + 6 + k i / 10 + 1 by omega]
  rfl

theorem few_transitions : (∀ w, w ∈ Spec.Hdmi.terc4 → transitionsBelow w 10 ≤ 5) ∧
    transitionsBelow Spec.Hdmi.islandGuard 10 ≤ 5 ∧
    ∀ i, i < 3 → transitionsBelow (Spec.Hdmi.videoGuard.channel i) 10 ≤ 5 := by decide +kernel

theorem not_tokens : (∀ w, w ∈ Spec.Hdmi.terc4 → w ∉ tokens) ∧ Spec.Hdmi.islandGuard ∉ tokens ∧
    ∀ i, i < 3 → Spec.Hdmi.videoGuard.channel i ∉ tokens := by decide +kernel

section

variable {ph : Nat → Phase} {w : Nat → Triple} {n0 : Nat} (hs : Sends ph w n0)

include hs

theorem control_iff {n i : Nat} (hn : n0 ≤ n) (hi : i < 3) :
    (w n).channel i ∈ tokens ↔ ph n = .control := by
  have hc := hs.word n hn
  obtain ⟨n1, n2, n3⟩ := not_tokens
  have h3 : i = 0 ∨ i = 1 ∨ i = 2 := by omega
  cases hp : ph n <;> rw [hp] at hc <;> simp only [Spec.Hdmi.carries] at hc
  · simp only [iff_true]
    rcases h3 with rfl | rfl | rfl
    · exact hc.1
    · exact hc.2.1
    · exact hc.2.2
  · rw [hc]; simpa using n3 i hi
  · rcases h3 with rfl | rfl | rfl
    · simpa [Triple.channel] using hc.1
    · simpa [Triple.channel] using hc.2.1
    · simpa [Triple.channel] using hc.2.2
  · rcases h3 with rfl | rfl | rfl
    · simpa [Triple.channel] using n1 _ hc.1
    · simpa [Triple.channel, hc.2.1] using n2
    · simpa [Triple.channel, hc.2.2] using n2
  · rcases h3 with rfl | rfl | rfl
    · simpa [Triple.channel] using n1 _ hc.1
    · simpa [Triple.channel] using n1 _ hc.2.1
    · simpa [Triple.channel] using n1 _ hc.2.2
  · rcases h3 with rfl | rfl | rfl
    · simpa [Triple.channel] using n1 _ hc.1
    · simpa [Triple.channel, hc.2.1] using n2
    · simpa [Triple.channel, hc.2.2] using n2

theorem few_in_period {n i : Nat} (hx : TmdsPixels ph w n0) (hn : n0 ≤ n) (hi : i < 3)
    (hp : ph n ≠ .control) : transitionsBelow ((w n).channel i) 10 ≤ 5 := by
  have hc := hs.word n hn
  obtain ⟨n1, n2, n3⟩ := few_transitions
  have h3 : i = 0 ∨ i = 1 ∨ i = 2 := by omega
  cases hq : ph n <;> rw [hq] at hc <;> simp only [Spec.Hdmi.carries] at hc
  · exact absurd hq hp
  · rw [hc]; exact n3 i hi
  · exact hx n i hn hq hi
  · rcases h3 with rfl | rfl | rfl
    · exact n1 _ hc.1
    · simpa only [Triple.channel, hc.2.1] using n2
    · simpa only [Triple.channel, hc.2.2] using n2
  · rcases h3 with rfl | rfl | rfl
    · exact n1 _ hc.1
    · exact n1 _ hc.2.1
    · exact n1 _ hc.2.2
  · rcases h3 with rfl | rfl | rfl
    · exact n1 _ hc.1
    · simpa only [Triple.channel, hc.2.1] using n2
    · simpa only [Triple.channel, hc.2.2] using n2

/-- No control word stands alone. -/
theorem control_neighbour {n : Nat} (hn : n0 ≤ n) (hp : ph n = .control) :
    (n0 < n ∧ ph (n - 1) = .control) ∨ ph (n + 1) = .control := by
  by_cases h : n = n0
  · subst h; exact .inr hs.second
  · by_cases h' : ph (n - 1) = .control
    · exact .inl ⟨by omega, h'⟩
    · have := hs.blanking (n - 1) (by omega) h' (by rw [show n - 1 + 1 = n by omega]; exact hp)
      rw [show n - 1 + 2 = n + 1 by omega] at this
      exact .inr this

theorem hdmi_lane {f g : Nat} (ha : Acquire ph n0 f g) (hx : TmdsPixels ph w n0) (h4 : 4 ≤ n0)
    (k : Nat → Nat) (lead : Nat → Nat → Bool) (i : Nat) (hi : i < 3) :
    LaneWords (k i) (hdmiBits w k lead i) (n0 - 4) := by
  have hw : ∀ n, receivedWord (hdmiBits w k lead i) (k i) n = (w (n + 4)).channel i := fun n =>
    CharSync.wordAt_serialise _ _ _ _
  have good : ∀ n, n0 - 4 ≤ n → TmdsAt (receivedWord (hdmiBits w k lead i) (k i)) n := by
    intro n hn
    by_cases hp : ph (n + 4) = .control
    · left
      refine ⟨by rw [hw]; exact (control_iff hs (by omega) hi).2 hp, ?_⟩
      rcases control_neighbour hs (by omega) hp with ⟨h1, h2⟩ | h
      · refine .inl ⟨by omega, ?_⟩
        rw [hw]
        exact (control_iff hs (by omega) hi).2 (by rw [show n - 1 + 4 = n + 4 - 1 by omega]; exact h2)
      · refine .inr ?_
        rw [hw]
        exact (control_iff hs (by omega) hi).2 (by rw [show n + 1 + 4 = n + 4 + 1 by omega]; exact h)
    · right
      rw [hw]
      exact few_in_period hs hx (by omega) hi hp
  exact ⟨fun n h1 h2 => by rw [hw]; exact (control_iff hs (by omega) hi).2 (ha.blank _ (by omega) (by omega)),
    fun n hn => ⟨n, Nat.le_refl _, by omega, good n hn, good _ (by omega), good _ (by omega)⟩⟩

/-- The source from a later control period on. -/
theorem sends_from {m : Nat} (hm : n0 ≤ m) (hc : ∀ u, u ≤ 3 → ph (m + u) = .control) :
    Sends (fun j => ph (m + j)) (fun j => w (m + j)) 0 where
  first := hc 0 (by omega)
  second := hc 1 (by omega)
  next := fun t _ => hs.next (m + t) (by omega)
  blanking := fun t _ => hs.blanking (m + t) (by omega)
  word := fun t _ => hs.word (m + t) (by omega)
  preamble := fun t _ h1 h2 => by
    have ht : 3 ≤ t := by
      apply Nat.le_of_not_lt
      intro h
      have := hc (t + 1) (by omega)
      rw [show ph (m + (t + 1)) = .islandLead from h2] at this
      cases this
    refine ⟨by omega, fun u hu1 hu2 => ?_⟩
    exact (hs.preamble (m + t) (by omega) h1 h2).2 (m + u) (by omega) (by omega)

end

/-- What the receiver puts out once it is locked: `C133_locks`, and how the syncs come about. -/
theorem hdmi_core (s0 : Rx) (hs0 : HdmiRegisters s0) (ph : Nat → Phase) (w : Nat → Triple)
    (k : Nat → Nat) (lead : Nat → Nat → Bool) (dvi : Nat → Bool) (n0 f g : Nat) (hs : Sends ph w n0)
    (ha : Acquire ph n0 f g) (h4 : 4 ≤ n0) (hx : TmdsPixels ph w n0)
    (hskew : ∀ i j, i < 3 → j < 3 → k i ≤ k j + 70) (hd : ∀ t, dvi t = false)
    (hp : PlainLines ph w n0) :
    ∃ T, (∀ i, i < 3 → g + k i / 10 + 2 ≤ T ∧ T ≤ g + k i / 10 + 23) ∧
    (∀ j,
        let rx := hdmiRx s0 (hdmiBits w k lead) dvi
        let phase := ph (g + 3 + j)
        let next := w (g + 4 + j)
        (Terc4.deHdmi (rx (T + j)).path.dec = true ↔ phase = .pixel) ∧
        (Terc4.encodingTerc4 (rx (T + j)).path.dec = true ↔
          phase = .islandLead ∨ phase = .island ∨ phase = .islandTrail) ∧
        (Terc4.encryptingData (rx (T + j)).path.dec = true ↔ phase = .island) ∧
        (∀ v : Fin 16, (Spec.Hdmi.terc4[v] = next.c0 → (rx (T + j)).path.dec.ch0.d = BitVec.ofNat 4 v) ∧
          (Spec.Hdmi.terc4[v] = next.c1 → (rx (T + j)).path.dec.ch1.d = BitVec.ofNat 4 v) ∧
          (Spec.Hdmi.terc4[v] = next.c2 → (rx (T + j)).path.dec.ch2.d = BitVec.ofNat 4 v)) ∧
        let out := (rx (T + 1 + j)).path.pol
        out.valid_o = true ∧ (Analysis.SyncPolarity.de out = true ↔ phase = .pixel) ∧
        out.r = decodeByte next.c2 ∧ out.g = decodeByte next.c1 ∧ out.b = decodeByte next.c0) ∧
    let o := fun j => (hdmiRx s0 (hdmiBits w k lead) dvi (T + 1 + j)).path.pol
    ∃ cc : Nat → BitVec 2,
      (∀ j, (w (g + 4 + j)).c0 ∈ tokens → cc j = controlBits (w (g + 4 + j)).c0) ∧
      (∀ j, (w (g + 5 + j)).c0 ∉ tokens → cc (j + 1) = cc j) ∧
      ∀ j, let ends := Analysis.SyncPolarity.de (o j) && !Analysis.SyncPolarity.de (o (j + 1))
        (o (j + 1)).c_out = (if ends then 0 else cc (j + 1) ^^^ (o j).c_polarity) ∧
        (o (j + 1)).c_polarity = (if ends then cc (j + 1) else (o j).c_polarity) := by
  have hr0 : Registers (front s0) := ⟨hs0.counter0, hs0.counter1, hs0.counter2, hs0.pointers⟩
  have hl := hdmi_lane hs ha hx h4 k lead
  have hw : ∀ i n, receivedWord (hdmiBits w k lead i) (k i) n = (w (n + 4)).channel i := fun i n =>
    CharSync.wordAt_serialise _ _ _ _
  -- data-enable of a DVI transmitter whose blanking is the control periods
  let x : Nat → Phy := fun n => ⟨decide (ph (n + 4) ≠ .control), false, false, 0, 0, 0⟩
  have hagree : ∀ n, n0 - 4 ≤ n → LanesAgree x k (hdmiBits w k lead) n := by
    intro n hn i hi
    rw [hw, control_iff hs (by omega) hi]
    show _ ↔ decide _ = false
    simp
  have hlater := ha.later
  have hlong := ha.long
  have xfalse : ∀ n, (x n).de = false ↔ ph (n + 4) = .control := fun n => by
    show decide _ = false ↔ _; simp
  have tr : Training x (n0 - 4) (f - 4) (g - 4) :=
    { blank := fun n h1 h2 => (xfalse n).2 (ha.blank _ (by omega) (by omega))
      iso := fun n h1 h2 => by
        rw [xfalse] at h2
        rw [xfalse, xfalse]
        by_cases h : ph (n + 4) = .control
        · exact .inl h
        · exact .inr (hs.blanking (n + 4) (by omega) h (by rw [show n + 4 + 1 = n + 1 + 4 by omega]; exact h2))
      later := by omega
      before := (xfalse _).2 (by rw [show f - 4 - 1 + 4 = f - 1 by omega]; exact ha.before)
      active := fun n h1 h2 => by
        show decide _ = true
        exact decide_eq_true (ha.period _ (by omega) (by omega))
      ends := (xfalse _).2 (by rw [show g - 4 + 4 = g by omega]; exact ha.after g (by omega) (by omega))
      long := by omega }
  obtain ⟨T, hT, hd'⟩ := rx_chan_synced hr0 hl tr hskew (fun m h1 _ => hagree m (by omega))
  have hall := fun j => hd' j fun m h1 _ => hagree m (by omega)
  have hfr := front_run s0 (hdmiBits w k lead) dvi
  -- inputs of the path from clock `T + 1` on
  let inp : Nat → Terc4.In := fun t => (hdmiRx s0 (hdmiBits w k lead) dvi (T + 1 + t)).pathIn (dvi (T + 1 + t))
  have hpath : ∀ t, (hdmiRx s0 (hdmiBits w k lead) dvi (T + 1 + t)).path =
      trace Terc4.Path.step (hdmiRx s0 (hdmiBits w k lead) dvi (T + 1)).path inp t := by
    intro t
    induction t with
    | zero => rfl
    | succ t ih =>
      show Terc4.Path.step (hdmiRx s0 (hdmiBits w k lead) dvi (T + 1 + t)).path _ = _
      rw [ih]; rfl
  have hword : ∀ t i, i < 3 → ChanSync.dataOut (hdmiRx s0 (hdmiBits w k lead) dvi (T + 1 + t)).chan i =
      chanWord (front s0) (hdmiBits w k lead) k i (g - 4 + (1 + t)) := by
    intro t i hi
    rw [(hfr _).2.2.2, show T + 1 + t = T + (1 + t) by omega]
    exact (hall (1 + t)).1 i hi
  have hraw : ∀ t i, i < 3 → (ChanSync.dataOut (hdmiRx s0 (hdmiBits w k lead) dvi (T + 1 + t)).chan i).raw =
      (w (g + 1 + t)).channel i := by
    intro t i hi
    rw [hword t i hi, chan_raw hr0 hl i _ hi (by omega), hw]
    congr 2; omega
  have hdat : ∀ t i, i < 3 → (ChanSync.dataOut (hdmiRx s0 (hdmiBits w k lead) dvi (T + 1 + t)).chan i).d =
      decodeByte ((w (g + 1 + t)).channel i) := by
    intro t i hi
    have := (chan_word hr0 hl i (g - 4 + (1 + t)) (by omega)).2.2.1
    rw [show min i 2 = i by omega, hw, show g - 4 + (1 + t) + 4 = g + 1 + t by omega] at this
    rw [hword t i hi, ← this, chanWord, show min i 2 = i by omega]
    rfl
  have hvalid : ∀ t, (inp t).valid_i = true := by
    intro t
    show (hdmiRx s0 (hdmiBits w k lead) dvi (T + 1 + t)).chan.chan_synced = true
    rw [(hfr _).2.2.2, show T + 1 + t = T + (1 + t) by omega]
    exact (hall (1 + t)).2.1 (by omega)
  have htri : ∀ t, Terc4.triple (inp t) = w (g + 1 + t) := by
    intro t
    have h0 := hraw t 0 (by omega)
    have h1 := hraw t 1 (by omega)
    have h2 := hraw t 2 (by omega)
    show (⟨_, _, _⟩ : Triple) = _
    show (⟨(ChanSync.dataOut (hdmiRx s0 (hdmiBits w k lead) dvi (T + 1 + t)).chan 0).raw,
      (ChanSync.dataOut (hdmiRx s0 (hdmiBits w k lead) dvi (T + 1 + t)).chan 1).raw,
      (ChanSync.dataOut (hdmiRx s0 (hdmiBits w k lead) dvi (T + 1 + t)).chan 2).raw⟩ : Triple) = _
    rw [h0, h1, h2]
    rfl
  have hsend : Sends (fun j => ph (g + 1 + j)) (fun t => Terc4.triple (inp t)) 0 := by
    rw [show (fun t => Terc4.triple (inp t)) = fun j => w (g + 1 + j) from funext htri]
    exact sends_from hs (by omega) (fun u hu => ha.after _ (by omega) (by omega))
  have hplain : PlainLines (fun j => ph (g + 1 + j)) (fun t => Terc4.triple (inp t)) 0 := by
    intro t _ h1 h2
    show Terc4.triple (inp (t + 1)) ≠ _
    rw [htri]
    exact hp (g + 1 + t) (by omega) h1 h2
  have hdec : ∀ t, (hdmiRx s0 (hdmiBits w k lead) dvi (T + 1 + t)).path.dec =
      trace Terc4.step (hdmiRx s0 (hdmiBits w k lead) dvi (T + 1)).path.dec inp t := by
    intro t
    induction t with
    | zero => rfl
    | succ t ih =>
      show Terc4.step (hdmiRx s0 (hdmiBits w k lead) dvi (T + 1 + t)).path.dec (inp t) = _
      rw [ih]; rfl
  have hcc : ∀ t, let v := ChanSync.dataOut (hdmiRx s0 (hdmiBits w k lead) dvi (T + 1 + t)).chan 0
      ((w (g + 1 + t)).c0 ∈ tokens → v.c = controlBits (w (g + 1 + t)).c0) ∧
      ((w (g + 2 + t)).c0 ∉ tokens →
        (ChanSync.dataOut (hdmiRx s0 (hdmiBits w k lead) dvi (T + 1 + (t + 1))).chan 0).c = v.c) := by
    intro t v
    have e0 : ∀ m, receivedWord (hdmiBits w k lead 0) (k 0) m = (w (m + 4)).c0 := hw 0
    constructor
    · have := (chan_word hr0 hl 0 (g - 4 + (1 + t)) (by omega)).2.2.2.1
      rw [show min 0 2 = 0 by rfl, e0, show g - 4 + (1 + t) + 4 = g + 1 + t by omega] at this
      intro h
      rw [← this h]
      show (ChanSync.dataOut _ 0).c = _
      rw [hword t 0 (by omega)]; rfl
    · have := (chan_word hr0 hl 0 (g - 4 + (1 + (t + 1))) (by omega)).2.2.2.2
      rw [show min 0 2 = 0 by rfl, e0, show g - 4 + (1 + (t + 1)) + 4 = g + 2 + t by omega] at this
      intro h
      show _ = (ChanSync.dataOut _ 0).c
      rw [hword t 0 (by omega), hword (t + 1) 0 (by omega)]
      refine (this h).trans ?_
      rw [show g - 4 + (1 + (t + 1)) + 6 + k 0 / 10 = g - 4 + (1 + t) + 7 + k 0 / 10 by omega]
      rfl
  refine ⟨T + 5, fun i hi => by have := hT i hi; omega, fun j => ?_,
    fun j => (ChanSync.dataOut (hdmiRx s0 (hdmiBits w k lead) dvi (T + 1 + (3 + j))).chan 0).c,
    fun j => ?_, fun j => ?_, fun j => ?_⟩
  rotate_left
  · have := (hcc (3 + j)).1
    rw [show g + 1 + (3 + j) = g + 4 + j by omega] at this
    exact this
  · have := (hcc (3 + j)).2
    rw [show g + 2 + (3 + j) = g + 5 + j by omega] at this
    exact this
  · dsimp only
    rw [show T + 5 + 1 + j = T + 1 + (4 + j) + 1 by omega,
      show T + 5 + 1 + (j + 1) = T + 1 + (4 + j) + 1 + 1 by omega, show 3 + (j + 1) = 4 + j by omega]
    exact ⟨rfl, rfl⟩
  intro rx phase next
  have hph : ph (g + 1 + (2 + j)) = phase := by show ph _ = ph (g + 3 + j); congr 1; omega
  have e1 : rx (T + 5 + j) = hdmiRx s0 (hdmiBits w k lead) dvi (T + 1 + (2 + j + 2)) := by
    show hdmiRx _ _ _ (T + 5 + j) = _
    congr 1; omega
  have e2 : rx (T + 5 + 1 + j) = hdmiRx s0 (hdmiBits w k lead) dvi (T + 1 + (2 + j + 3)) := by
    show hdmiRx _ _ _ (T + 5 + 1 + j) = _
    congr 1; omega
  obtain ⟨z, e3⟩ : ∃ z, rx (T + 5 + j) = Rx.step (hdmiRx s0 (hdmiBits w k lead) dvi (T + 1 + (3 + j))) z := by
    rw [show T + 5 + j = T + 1 + (3 + j) + 1 by omega]
    exact ⟨_, rfl⟩
  have hnext : w (g + 1 + (3 + j)) = next := by show w _ = w (g + 4 + j); congr 1; omega
  have c1 := C22_pixels_exact (hdmiRx s0 (hdmiBits w k lead) dvi (T + 1)).path.dec inp
    (fun j => ph (g + 1 + j)) 0 hsend (fun t _ => hvalid t) hplain (2 + j) (by omega)
  obtain ⟨-, c2, c3⟩ := C22_periods_partial (hdmiRx s0 (hdmiBits w k lead) dvi (T + 1)).path.dec inp
    (fun j => ph (g + 1 + j)) 0 hsend (fun t _ => hvalid t) (2 + j) (by omega)
  obtain ⟨c4, c5, c6, c7⟩ := C76_hdmi_partial (hdmiRx s0 (hdmiBits w k lead) dvi (T + 1)).path inp
    (fun j => ph (g + 1 + j)) 0 hsend (fun t _ => hvalid t) hplain (fun t => hd _) (2 + j) (by omega)
  simp only [hph] at c1 c2 c3 c4
  rw [← hdec, ← e1] at c1 c2 c3
  rw [← hpath, ← e2] at c4 c5 c6 c7
  refine ⟨c1, c2, c3, fun v => ⟨fun h => ?_, fun h => ?_, fun h => ?_⟩, ?_, c4, ?_, ?_, ?_⟩
  · rw [e3]
    refine (C77_nibbles 0 _ _ _).1 v ?_
    rw [h, ← hnext]; exact (hraw (3 + j) 0 (by omega)).symm
  · rw [e3]
    refine (C77_nibbles 1 _ _ _).1 v ?_
    rw [h, ← hnext]; exact (hraw (3 + j) 1 (by omega)).symm
  · rw [e3]
    refine (C77_nibbles 2 _ _ _).1 v ?_
    rw [h, ← hnext]; exact (hraw (3 + j) 2 (by omega)).symm
  · rw [e2]
    exact hvalid (2 + j + 2)
  · rw [c5, ← hnext, show 3 + j = 2 + j + 1 by omega]; exact hdat (2 + j + 1) 2 (by omega)
  · rw [c6, ← hnext, show 3 + j = 2 + j + 1 by omega]; exact hdat (2 + j + 1) 1 (by omega)
  · rw [c7, ← hnext, show 3 + j = 2 + j + 1 by omega]; exact hdat (2 + j + 1) 0 (by omega)

/-- **C133** A receiver with `hdmi=True` that is not in DVI mode locks onto an HDMI source.  The source sends
video periods and data islands in any order; the three lanes arrive with delays of any number of bits, at most
70 bits apart; the registers of the receiver may hold anything at first.  After ten control words, the next
complete period of at least 15 words (which ends before clock `g`) and two more words, the receiver tells from
clock `T` on, word by word, what is being received: data-enable is 1 exactly for the pixels (if no line begins
with a pixel that looks like the guard band), and the data-island flags are exact; the nibbles of the three
channels are those of the TERC4 words, one clock before their flag.  The colours at the output are those of
the word one clock after the one that data-enable is about (C76). -/
theorem C133_locks (s0 : Rx) (hs0 : HdmiRegisters s0) (ph : Nat → Phase) (w : Nat → Triple)
    (k : Nat → Nat) (lead : Nat → Nat → Bool) (dvi : Nat → Bool) (n0 f g : Nat) (hs : Sends ph w n0)
    (ha : Acquire ph n0 f g) (h4 : 4 ≤ n0) (hx : TmdsPixels ph w n0)
    (hskew : ∀ i j, i < 3 → j < 3 → k i ≤ k j + 70) (hd : ∀ t, dvi t = false)
    (hp : PlainLines ph w n0) :
    ∃ T, (∀ i, i < 3 → g + k i / 10 + 2 ≤ T ∧ T ≤ g + k i / 10 + 23) ∧ ∀ j,
      let rx := hdmiRx s0 (hdmiBits w k lead) dvi
      let phase := ph (g + 3 + j)
      let next := w (g + 4 + j)
      (Terc4.deHdmi (rx (T + j)).path.dec = true ↔ phase = .pixel) ∧
      (Terc4.encodingTerc4 (rx (T + j)).path.dec = true ↔
        phase = .islandLead ∨ phase = .island ∨ phase = .islandTrail) ∧
      (Terc4.encryptingData (rx (T + j)).path.dec = true ↔ phase = .island) ∧
      (∀ v : Fin 16, (Spec.Hdmi.terc4[v] = next.c0 → (rx (T + j)).path.dec.ch0.d = BitVec.ofNat 4 v) ∧
        (Spec.Hdmi.terc4[v] = next.c1 → (rx (T + j)).path.dec.ch1.d = BitVec.ofNat 4 v) ∧
        (Spec.Hdmi.terc4[v] = next.c2 → (rx (T + j)).path.dec.ch2.d = BitVec.ofNat 4 v)) ∧
      let out := (rx (T + 1 + j)).path.pol
      out.valid_o = true ∧ (Analysis.SyncPolarity.de out = true ↔ phase = .pixel) ∧
      out.r = decodeByte next.c2 ∧ out.g = decodeByte next.c1 ∧ out.b = decodeByte next.c0 := by
  obtain ⟨T, h1, h2, -⟩ := hdmi_core s0 hs0 ph w k lead dvi n0 f g hs ha h4 hx hskew hd hp
  exact ⟨T, h1, h2⟩

section Syncs

variable {ph : Nat → Phase} {w : Nat → Triple} {c : Nat → BitVec 2} {n0 g : Nat} {cc : Nat → BitVec 2}

theorem cc_level (hs : Sends ph w n0) (hc : CarriesSyncs ph w c n0) (hg : n0 ≤ g)
    (h1 : ∀ j, (w (g + 4 + j)).c0 ∈ tokens → cc j = controlBits (w (g + 4 + j)).c0)
    (h2 : ∀ j, (w (g + 5 + j)).c0 ∉ tokens → cc (j + 1) = cc j) (j : Nat) :
    (ph (g + 4 + j) = .control → cc j = c (g + 4 + j)) ∧
    (ph (g + 4 + (j + 1)) ≠ .control → cc (j + 1) = cc j) := by
  constructor
  · intro h
    rw [h1 j ((control_iff hs (i := 0) (by omega) (by omega)).2 h), (hc _ (by omega)).1 h]
  · intro h
    refine h2 j fun hm => h ?_
    rw [show g + 4 + (j + 1) = g + 5 + j by omega]
    exact (control_iff hs (i := 0) (by omega) (by omega)).1 hm

theorem cc_last (hcc : ∀ j, (ph (g + 4 + j) = .control → cc j = c (g + 4 + j)) ∧
    (ph (g + 4 + (j + 1)) ≠ .control → cc (j + 1) = cc j)) (i d : Nat) (hi : ph (g + 4 + i) = .control)
    (hd : ∀ u, g + 4 + i < u → u ≤ g + 4 + i + d → ph u ≠ .control) : cc (i + d) = c (g + 4 + i) := by
  induction d with
  | zero => exact (hcc i).1 hi
  | succ d ih =>
    rw [show i + (d + 1) = i + d + 1 by omega, (hcc (i + d)).2 (hd _ (by omega) (by omega))]
    exact ih fun u h1 h2 => hd u h1 (by omega)

theorem line_then_control (hs : Sends ph w n0) {e : Nat} (he : n0 ≤ e) (hl : LastPixel ph e) :
    ph (e + 1) = .control ∧ ph (e + 2) = .control := by
  have h1 : ph (e + 1) = .control := by
    have := hs.next e he
    rw [hl.1] at this
    have h2 := hl.2
    cases hp : ph (e + 1) <;> rw [hp] at this h2 <;> first | rfl | exact absurd rfl h2 | cases this
  exact ⟨h1, hs.blanking e he (by rw [hl.1]; decide) h1⟩

end Syncs

/-- **C134** The syncs in HDMI mode, exactly.  At the clock at which the output's data-enable is about word
`g + 3 + j`, its syncs are the levels of the last control word up to word `g + 4 + j`, relative to the levels of
the second control word after the last pixel of the last line. -/
theorem C134_syncs_partial (s0 : Rx) (hs0 : HdmiRegisters s0) (ph : Nat → Phase) (w : Nat → Triple)
    (k : Nat → Nat) (lead : Nat → Nat → Bool) (dvi : Nat → Bool) (n0 f g : Nat) (hs : Sends ph w n0)
    (ha : Acquire ph n0 f g) (h4 : 4 ≤ n0) (hx : TmdsPixels ph w n0)
    (hskew : ∀ i j, i < 3 → j < 3 → k i ≤ k j + 70) (hd : ∀ t, dvi t = false)
    (hp : PlainLines ph w n0) (c : Nat → BitVec 2) (hc : CarriesSyncs ph w c n0) :
    ∃ T, (∀ i, i < 3 → g + k i / 10 + 3 ≤ T ∧ T ≤ g + k i / 10 + 24) ∧ ∀ j,
      let out := (hdmiRx s0 (hdmiBits w k lead) dvi (T + j)).path.pol
      (Analysis.SyncPolarity.de out = true ↔ ph (g + 3 + j) = .pixel) ∧
      ∀ e m, g + 3 ≤ e → e < g + 3 + j → LastPixel ph e →
        (∀ u, e < u → u < g + 3 + j → ¬ LastPixel ph u) →
        e + 2 ≤ m → m ≤ g + 4 + j → ph m = .control →
        (∀ u, m < u → u ≤ g + 4 + j → ph u ≠ .control) →
        Analysis.SyncPolarity.hsync out = ((c m).getLsbD 0 ^^ (c (e + 2)).getLsbD 0) ∧
        Analysis.SyncPolarity.vsync out = ((c m).getLsbD 1 ^^ (c (e + 2)).getLsbD 1) := by
  obtain ⟨T, h1, h2, cc, h3, h5, h6⟩ := hdmi_core s0 hs0 ph w k lead dvi n0 f g hs ha h4 hx hskew hd hp
  have hla := ha.later
  have hlo := ha.long
  have hcc := cc_level hs hc (by omega) h3 h5
  have hde : ∀ j, Analysis.SyncPolarity.de (hdmiRx s0 (hdmiBits w k lead) dvi (T + 1 + j)).path.pol = true ↔
      ph (g + 3 + j) = .pixel := fun j => (h2 j).2.2.2.2.2.1
  refine ⟨T + 1, fun i hi => by have := h1 i hi; omega, fun j => ⟨hde j, ?_⟩⟩
  intro e m he1 he2 hl hno hm1 hm2 hmc hmn
  obtain ⟨i, rfl⟩ : ∃ i, e = g + 3 + i := ⟨e - (g + 3), by omega⟩
  obtain ⟨-, hc2⟩ := line_then_control hs (by omega) hl
  have ends : ∀ j, (Analysis.SyncPolarity.de (hdmiRx s0 (hdmiBits w k lead) dvi (T + 1 + j)).path.pol &&
      !Analysis.SyncPolarity.de (hdmiRx s0 (hdmiBits w k lead) dvi (T + 1 + (j + 1))).path.pol) = true ↔
      LastPixel ph (g + 3 + j) := by
    intro j
    rw [Bool.and_eq_true, hde, Bool.not_eq_true', ← Bool.not_eq_true, hde]
    rfl
  have hpol : ∀ d, i + 1 + d ≤ j →
      (hdmiRx s0 (hdmiBits w k lead) dvi (T + 1 + (i + 1 + d))).path.pol.c_polarity = c (g + 3 + i + 2) := by
    intro d
    induction d with
    | zero =>
      intro _
      have := (h6 i).2
      rw [if_pos ((ends i).2 hl)] at this
      rw [show i + 1 + 0 = i + 1 by omega]
      rw [show g + 3 + i + 2 = g + 4 + (i + 1) by omega] at hc2 ⊢
      exact this.trans ((hcc (i + 1)).1 hc2)
    | succ d ih =>
      intro hdj
      have := (h6 (i + 1 + d)).2
      rw [if_neg (fun h => hno _ (by omega) (by omega) ((ends _).1 h))] at this
      exact this.trans (ih (by omega))
  have hout : (hdmiRx s0 (hdmiBits w k lead) dvi (T + 1 + j)).path.pol.c_out = c m ^^^ c (g + 3 + i + 2) := by
    by_cases hj : j = i + 1
    · subst hj
      have := (h6 i).1
      rw [if_pos ((ends i).2 hl)] at this
      rw [show m = g + 3 + i + 2 by omega, BitVec.xor_self]
      exact this
    · obtain ⟨d, rfl⟩ : ∃ d, j = i + 1 + d + 1 := ⟨j - (i + 2), by omega⟩
      have := (h6 (i + 1 + d)).1
      rw [if_neg (fun h => hno _ (by omega) (by omega) ((ends _).1 h))] at this
      refine this.trans ?_
      show _ ^^^ (hdmiRx s0 (hdmiBits w k lead) dvi (T + 1 + (i + 1 + d))).path.pol.c_polarity = _
      rw [hpol d (by omega)]
      obtain ⟨q, rfl⟩ : ∃ q, m = g + 4 + q := ⟨m - (g + 4), by omega⟩
      have := cc_last hcc q (i + 1 + d + 1 - q) hmc fun u hu1 hu2 => hmn u hu1 (by omega)
      rw [show q + (i + 1 + d + 1 - q) = i + 1 + d + 1 by omega] at this
      rw [this]
  constructor
  · show BitVec.getLsbD _ 0 = _
    rw [hout, BitVec.getLsbD_xor]
  · show BitVec.getLsbD _ 1 = _
    rw [hout, BitVec.getLsbD_xor]

/-- **C134** Sync pulses inside data islands are lost: if all control words after lock carry the same levels, the
output shows no sync pulse from the end of the next line on, whatever levels the data islands carry. -/
theorem C134_lost (s0 : Rx) (hs0 : HdmiRegisters s0) (ph : Nat → Phase) (w : Nat → Triple)
    (k : Nat → Nat) (lead : Nat → Nat → Bool) (dvi : Nat → Bool) (n0 f g : Nat) (hs : Sends ph w n0)
    (ha : Acquire ph n0 f g) (h4 : 4 ≤ n0) (hx : TmdsPixels ph w n0)
    (hskew : ∀ i j, i < 3 → j < 3 → k i ≤ k j + 70) (hd : ∀ t, dvi t = false)
    (hp : PlainLines ph w n0) (c : Nat → BitVec 2) (hc : CarriesSyncs ph w c n0) (v : BitVec 2)
    (hv : ∀ n, g ≤ n → ph n = .control → c n = v) (e : Nat) (he : g + 3 ≤ e) (hl : LastPixel ph e) (t : Nat)
    (ht : e + k 0 / 10 + 23 ≤ t) :
    let out := (hdmiRx s0 (hdmiBits w k lead) dvi t).path.pol
    Analysis.SyncPolarity.hsync out = false ∧ Analysis.SyncPolarity.vsync out = false := by
  obtain ⟨T, h1, h2, cc, h3, h5, h6⟩ := hdmi_core s0 hs0 ph w k lead dvi n0 f g hs ha h4 hx hskew hd hp
  have hla := ha.later
  have hlo := ha.long
  have hcc := cc_level hs hc (by omega) h3 h5
  have hde : ∀ j, Analysis.SyncPolarity.de (hdmiRx s0 (hdmiBits w k lead) dvi (T + 1 + j)).path.pol = true ↔
      ph (g + 3 + j) = .pixel := fun j => (h2 j).2.2.2.2.2.1
  obtain ⟨i, rfl⟩ : ∃ i, e = g + 3 + i := ⟨e - (g + 3), by omega⟩
  obtain ⟨-, hc2⟩ := line_then_control hs (by omega) hl
  have hend : (Analysis.SyncPolarity.de (hdmiRx s0 (hdmiBits w k lead) dvi (T + 1 + i)).path.pol &&
      !Analysis.SyncPolarity.de (hdmiRx s0 (hdmiBits w k lead) dvi (T + 1 + (i + 1))).path.pol) = true := by
    rw [Bool.and_eq_true, hde, Bool.not_eq_true', ← Bool.not_eq_true, hde]
    exact hl
  have all : ∀ d, cc (i + 1 + d) = v ∧
      (hdmiRx s0 (hdmiBits w k lead) dvi (T + 1 + (i + 1 + d))).path.pol.c_polarity = v ∧
      (hdmiRx s0 (hdmiBits w k lead) dvi (T + 1 + (i + 1 + d))).path.pol.c_out = 0 := by
    intro d
    induction d with
    | zero =>
      rw [show g + 3 + i + 2 = g + 4 + (i + 1) by omega] at hc2
      have e1 : cc (i + 1) = v := ((hcc (i + 1)).1 hc2).trans (hv _ (by omega) hc2)
      obtain ⟨a, b⟩ := h6 i
      rw [if_pos hend] at a b
      exact ⟨e1, b.trans e1, a⟩
    | succ d ih =>
      obtain ⟨i1, i2, i3⟩ := ih
      have e1 : cc (i + 1 + d + 1) = v := by
        by_cases hq : ph (g + 4 + (i + 1 + d + 1)) = .control
        · exact ((hcc _).1 hq).trans (hv _ (by omega) hq)
        · exact ((hcc _).2 hq).trans i1
      obtain ⟨a, b⟩ := h6 (i + 1 + d)
      have a' := a
      rw [e1, show (hdmiRx s0 (hdmiBits w k lead) dvi (T + 1 + (i + 1 + d))).path.pol.c_polarity = v from i2] at a b
      refine ⟨e1, ?_, ?_⟩
      · refine b.trans ?_
        split <;> rfl
      · refine a.trans ?_
        rw [BitVec.xor_self]
        split <;> rfl
  have hT := h1 0 (by omega)
  have := (all (t - (T + 2 + i))).2.2
  rw [show T + 1 + (i + 1 + (t - (T + 2 + i))) = t by omega] at this
  intro out
  have hz : out.c_out = 0 := this
  exact ⟨by show BitVec.getLsbD out.c_out 0 = _; rw [hz]; rfl, by show BitVec.getLsbD out.c_out 1 = _; rw [hz]; rfl⟩

/-! ### A source that meets the hypotheses -/

/-- 16 control words (the last three a data-island preamble), a data island, 12 control words, a line of 14
pixels, two control words, and so on for ever. -/
def lockPhase (t : Nat) : Phase :=
  let r := t % 64
  if r < 16 then .control
  else if r < 18 then .islandLead
  else if r < 32 then .island
  else if r < 34 then .islandTrail
  else if r < 46 then .control
  else if r < 48 then .videoGuard
  else if r < 62 then .pixel
  else .control

def lockWord (t : Nat) : Triple :=
  match lockPhase t with
  | .control => if 13 ≤ t % 64 ∧ t % 64 < 16 then ⟨0x354#10, 0x0AB#10, 0x0AB#10⟩
      else ⟨0x354#10, 0x354#10, 0x354#10⟩
  | .videoGuard => Spec.Hdmi.videoGuard
  | .pixel => ⟨0x1F0#10, 0x230#10, 0x1C0#10⟩
  | .islandLead | .islandTrail => ⟨0x28E#10, Spec.Hdmi.islandGuard, Spec.Hdmi.islandGuard⟩
  | .island => ⟨if 20 ≤ t % 64 ∧ t % 64 < 28 then 0x263#10 else 0x2CC#10, 0x171#10, 0x2CC#10⟩

theorem lockPhase_mod (t : Nat) : lockPhase t = lockPhase (t % 64) := by
  simp only [lockPhase, Nat.mod_mod]

theorem lockWord_mod (t : Nat) : lockWord t = lockWord (t % 64) := by
  unfold lockWord
  rw [← lockPhase_mod]
  simp only [Nat.mod_mod]

instance (p : Phase) (w : Triple) : Decidable (Spec.Hdmi.carries p w) := by
  cases p <;> unfold Spec.Hdmi.carries <;> infer_instance

theorem lock_sends : Sends lockPhase lockWord 4 := by
  have hm : ∀ t k, lockPhase (t + k) = lockPhase (t % 64 + k) := by
    intro t k
    rw [lockPhase_mod (t + k), lockPhase_mod (t % 64 + k)]
    congr 1; omega
  have hlt : ∀ t : Nat, t % 64 < 64 := fun t => Nat.mod_lt _ (by decide)
  refine ⟨rfl, rfl, ?_, ?_, ?_, ?_⟩
  · intro t _
    rw [lockPhase_mod t, hm t 1]
    have : ∀ r, r < 64 → Spec.Hdmi.follows (lockPhase r) (lockPhase (r + 1)) = true := by decide +kernel
    exact this _ (hlt t)
  · intro t _
    rw [lockPhase_mod t, hm t 1, hm t 2]
    have : ∀ r, r < 64 → lockPhase r ≠ .control → lockPhase (r + 1) = .control →
        lockPhase (r + 2) = .control := by decide +kernel
    exact this _ (hlt t)
  · intro t _
    rw [lockPhase_mod t, lockWord_mod t]
    have : ∀ r, r < 64 → Spec.Hdmi.carries (lockPhase r) (lockWord r) := by decide +kernel
    exact this _ (hlt t)
  · intro t _ h0 h1
    have hr : t % 64 = 15 := by
      rw [lockPhase_mod t] at h0
      rw [hm t 1] at h1
      have : ∀ r, r < 64 → lockPhase r = .control → lockPhase (r + 1) = .islandLead → r = 15 := by
        decide +kernel
      exact this _ (hlt t) h0 h1
    refine ⟨by omega, fun u h2 h3 => ?_⟩
    have hu : u % 64 = 13 ∨ u % 64 = 14 ∨ u % 64 = 15 := by omega
    rw [lockPhase_mod, lockWord_mod]
    rcases hu with h | h | h <;> rw [h] <;> exact ⟨rfl, rfl, rfl⟩

theorem lock_acquire : Acquire lockPhase 4 46 62 where
  blank := fun n h1 h2 => by
    have : ∀ m, m < 14 → lockPhase m = .control := by decide +kernel
    exact this n (by omega)
  later := by decide
  before := rfl
  period := fun n h1 h2 => by
    have : ∀ m, m < 62 → 46 ≤ m → lockPhase m ≠ .control := by decide +kernel
    exact this n h2 h1
  long := by decide
  after := fun n h1 h2 => by
    have : ∀ m, m < 72 → 62 ≤ m → lockPhase m = .control := by decide +kernel
    exact this n (by omega) h1

theorem lock_pixels : TmdsPixels lockPhase lockWord 4 := by
  intro n i _ hp hi
  have hw : lockWord n = ⟨0x1F0#10, 0x230#10, 0x1C0#10⟩ := by unfold lockWord; rw [hp]
  rw [hw]
  have : ∀ i, i < 3 → transitionsBelow ((⟨0x1F0#10, 0x230#10, 0x1C0#10⟩ : Triple).channel i) 10 ≤ 5 := by
    decide +kernel
  exact this i hi

theorem lock_plain : PlainLines lockPhase lockWord 4 := by
  intro t _ _ h1
  have hw : lockWord (t + 1) = ⟨0x1F0#10, 0x230#10, 0x1C0#10⟩ := by unfold lockWord; rw [h1]
  rw [hw]; decide

/-- Its sync levels: an hsync pulse of eight words in each data island. -/
def lockSync (t : Nat) : BitVec 2 := if 20 ≤ t % 64 ∧ t % 64 < 28 then 1 else 0

theorem lock_syncs : CarriesSyncs lockPhase lockWord lockSync 4 := by
  intro n _
  have : ∀ r, r < 64 → (lockPhase r = .control → controlBits (lockWord r).c0 = lockSync r) ∧
    (lockPhase r = .islandLead ∨ lockPhase r = .island ∨ lockPhase r = .islandTrail →
      ∃ v : Fin 16, (lockWord r).c0 = Spec.Hdmi.terc4[v] ∧ lockSync r = BitVec.ofNat 2 v) := by
    decide +kernel
  have hm : lockSync n = lockSync (n % 64) := by simp only [lockSync, Nat.mod_mod]
  rw [lockPhase_mod, lockWord_mod, hm]
  exact this _ (Nat.mod_lt _ (by decide))

theorem lock_control (n : Nat) (h : lockPhase n = .control) : lockSync n = 0 := by
  have hm : lockSync n = lockSync (n % 64) := by simp only [lockSync, Nat.mod_mod]
  rw [hm]
  rw [lockPhase_mod] at h
  have : ∀ r, r < 64 → lockPhase r = .control → lockSync r = 0 := by decide +kernel
  exact this _ (Nat.mod_lt _ (by decide)) h

theorem lock_registers : HdmiRegisters Rx.reset :=
  ⟨by decide, by decide, by decide, fun i _ => ⟨show 0 < 8 by decide, show 0 < 8 by decide⟩⟩

/-- C134: with some latency `L` the output shows, outside video periods, the sync levels that the source sends,
relative to the levels after the last line. -/
def C134_statement : Prop :=
  ∀ (s0 : Rx), HdmiRegisters s0 → ∀ (ph : Nat → Phase) (w : Nat → Triple) (k : Nat → Nat)
    (lead : Nat → Nat → Bool) (dvi : Nat → Bool) (n0 f g : Nat), Sends ph w n0 → Acquire ph n0 f g → 4 ≤ n0 →
    TmdsPixels ph w n0 → (∀ i j, i < 3 → j < 3 → k i ≤ k j + 70) → (∀ t, dvi t = false) →
    PlainLines ph w n0 → ∀ c, CarriesSyncs ph w c n0 →
    ∃ L, ∀ e n, g + 3 ≤ e → LastPixel ph e → e + 2 ≤ n → (∀ u, e < u → u ≤ n → ph u ≠ .pixel) →
      ph n ≠ .videoGuard →
      let out := (hdmiRx s0 (hdmiBits w k lead) dvi (n + L)).path.pol
      Analysis.SyncPolarity.hsync out = ((c n).getLsbD 0 ^^ (c (e + 2)).getLsbD 0) ∧
      Analysis.SyncPolarity.vsync out = ((c n).getLsbD 1 ^^ (c (e + 2)).getLsbD 1)

/-- **C134** is violated: the receiver takes the syncs from control words only.  A source that sends its hsync
pulses in data islands gives an output without any hsync. -/
theorem C134_violated : ¬ C134_statement ∧ lockPhase 84 = .island ∧ lockSync 84 = 1 ∧
    ∀ t, 148 ≤ t → Analysis.SyncPolarity.hsync
      (hdmiRx Rx.reset (hdmiBits lockWord (fun _ => 0) (fun _ _ => true)) (fun _ => false) t).path.pol =
        false := by
  have lost : ∀ t, 148 ≤ t → Analysis.SyncPolarity.hsync
      (hdmiRx Rx.reset (hdmiBits lockWord (fun _ => 0) (fun _ _ => true)) (fun _ => false) t).path.pol =
        false := fun t ht =>
    (C134_lost Rx.reset lock_registers lockPhase lockWord (fun _ => 0) (fun _ _ => true) (fun _ => false) 4 46 62
      lock_sends lock_acquire (by decide) lock_pixels (fun _ _ _ _ => by omega) (fun _ => rfl) lock_plain lockSync
      lock_syncs 0 (fun n _ h => lock_control n h) 125 (by decide) ⟨by decide, by decide⟩ t (by omega)).1
  refine ⟨fun h => ?_, by decide, by decide, lost⟩
  obtain ⟨L, h⟩ := h Rx.reset lock_registers lockPhase lockWord (fun _ => 0) (fun _ _ => true) (fun _ => false)
    4 46 62 lock_sends lock_acquire (by decide) lock_pixels (fun _ _ _ _ => by omega) (fun _ => rfl) lock_plain
    lockSync lock_syncs
  have hn : ∀ u, u < 149 → 125 < u → lockPhase u ≠ .pixel := by decide +kernel
  have := (h 125 148 (by decide) ⟨by decide, by decide⟩ (by decide)
    (fun u h1 h2 => hn u (by omega) h1) (by decide)).1
  rw [lost (148 + L) (by omega)] at this
  exact absurd this (by decide)

/-- Non-vacuity: a receiver out of reset, three lanes with delays of 3, 37 and 70 bits; data islands and
pixels are both received. -/
example : ∃ T, ∀ j,
    let rx := hdmiRx Rx.reset (hdmiBits lockWord (fun i => 3 + 33 * i) (fun _ _ => true)) (fun _ => false)
    (Terc4.deHdmi (rx (T + j)).path.dec = true ↔ lockPhase (65 + j) = .pixel) ∧
    (Terc4.encryptingData (rx (T + j)).path.dec = true ↔ lockPhase (65 + j) = .island) := by
  obtain ⟨T, -, h⟩ := C133_locks Rx.reset lock_registers
    lockPhase lockWord (fun i => 3 + 33 * i) (fun _ _ => true) (fun _ => false) 4 46 62 lock_sends lock_acquire
    (by decide) lock_pixels (fun i j hi hj => by omega) (fun _ => rfl) lock_plain
  exact ⟨T, fun j => ⟨(h j).1, (h j).2.2.1⟩⟩

example : lockPhase (65 + 20) = .island ∧ lockPhase (65 + 50) = .pixel := by decide

/-- Non-vacuity of `C134_syncs_partial`: the output at the clock that is about word 148, in the data island, whose
last control word is word 143. -/
example : ∃ T, Analysis.SyncPolarity.hsync (hdmiRx Rx.reset
    (hdmiBits lockWord (fun i => 3 + 33 * i) (fun _ _ => true)) (fun _ => false) (T + 83)).path.pol = false := by
  obtain ⟨T, -, h⟩ := C134_syncs_partial Rx.reset lock_registers
    lockPhase lockWord (fun i => 3 + 33 * i) (fun _ _ => true) (fun _ => false) 4 46 62 lock_sends lock_acquire
    (by decide) lock_pixels (fun i j hi hj => by omega) (fun _ => rfl) lock_plain lockSync lock_syncs
  have h1 : ∀ u, u < 148 → 125 < u → lockPhase u ≠ .pixel := by decide +kernel
  have h2 : ∀ u, u < 150 → 143 < u → lockPhase u ≠ .control := by decide +kernel
  exact ⟨T, ((h 83).2 125 143 (by decide) (by decide) ⟨by decide, by decide⟩
    (fun u a b hu => h1 u b a hu.1) (by decide) (by decide) (by decide)
    (fun u a b => h2 u (by omega) a)).1.trans (by decide)⟩

end Verif.Props
