import Verif.Props.LinkErrors
import Verif.Props.SyncErrors

/-!
# C111: what a damaged clock cannot do
-/

namespace Verif.Props

open Spec.Stream Spec.Tmds Spec.Serial Spec.Receiver Verif.VideoOut Verif.Receiver

/-- With latency `L`, the receiver shows clock `n` of the video `x`, with the syncs made active-high. -/
def Shows (s0 : Receiver.State) (bits : Nat → Nat → Bool) (x : Nat → Phy) (ph pv : Bool) (L n : Nat) : Prop :=
  let out := (rxOn s0 bits (n + L)).pol
  out.valid_o = true ∧ Analysis.SyncPolarity.de out = (x n).de ∧
  ((x n).de = true → out.r = (x n).r ∧ out.g = (x n).g ∧ out.b = (x n).b) ∧
  Analysis.SyncPolarity.hsync out = ((x n).hsync ^^ ph) ∧
  Analysis.SyncPolarity.vsync out = ((x n).vsync ^^ pv)

/-- The video is shown up to the first damaged clock `c`. -/
theorem shown_until (s0 : Receiver.State) (hs0 : Registers s0) (x : Nat → Phy) (k : Nat → Nat)
    (bits : Nat → Nat → Bool) (n0 f g c : Nat) (he : ∀ i, i < 3 → LaneWords (k i) (bits i) n0)
    (intact : ∀ i n, i < 3 → n0 ≤ n → n < c →
      receivedWord (bits i) (k i) n = sentWord (fun u => lane i (x u)) n) (hc : g + 15 ≤ c)
    (tr : Training x n0 f g) (hskew : ∀ i j, i < 3 → j < 3 → k i ≤ k j + 70)
    (ph pv : Bool) (e : Nat) (hge : g ≤ e) (std : StandardSyncs x ph pv e) :
    ∃ L, (∀ i, i < 3 → k i / 10 + 2 ≤ L ∧ L ≤ k i / 10 + 23) ∧
      ∀ n, e < n → n < c → Shows s0 bits x ph pv L n := by
  have agree : ∀ n, n0 + 10 ≤ n → n < c → LanesAgree x k bits n := by
    intro n h1 h2 i hi
    rw [intact i n hi (by omega) h2]
    constructor
    · intro ht
      cases hd : (x n).de
      · rfl
      · exact absurd ht (C03_data_words _ n (by rw [lane_de]; exact hd)).1
    · exact fun hd => List.mem_of_getElem? (C03_control_words (fun u => lane i (x u)) n
        (by rw [lane_de]; exact hd))
  obtain ⟨L, hL, h⟩ := received_until s0 hs0 x k bits n0 f g he (fun n h1 h2 => agree n h1 (by omega)) tr hskew
  obtain ⟨h1, h2, h3⟩ := h c agree
  have hn0 : n0 + 10 ≤ g := by have := tr.later; have := tr.long; omega
  refine ⟨L, hL, fun n hn hnc => ?_⟩
  obtain ⟨va, vd, vr, vg, vb⟩ := h1 n (by omega) hnc
  have dec : ∀ i, i < 3 → (x n).de = true →
      decodeByte (receivedWord (bits i) (k i) n) = (lane i (x n)).d := by
    intro i hi hd
    rw [intact i n hi (by omega) hnc]
    exact decode_sent (fun u => lane i (x u)) n (by rw [lane_de]; exact hd)
  refine ⟨va (by omega), vd, fun hd => ⟨vr.trans (dec 2 (by omega) hd), vg.trans (dec 1 (by omega) hd),
    vb.trans (dec 0 (by omega) hd)⟩, ?_⟩
  clear va vd vr vg vb dec
  obtain ⟨j, rfl⟩ : ∃ j, n = e + 1 + j := ⟨n - e - 1, by omega⟩
  clear hn
  have blank : ∀ j, e + 1 + j < c → (x (e + 1 + j)).de = false →
      Analysis.SyncPolarity.hsync (rxOn s0 bits (e + 1 + j + L)).pol = ((x (e + 1 + j)).hsync ^^ ph) ∧
      Analysis.SyncPolarity.vsync (rxOn s0 bits (e + 1 + j + L)).pol = ((x (e + 1 + j)).vsync ^^ pv) := by
    intro j hj hd
    obtain ⟨e', i, g1, g2, g3, g4⟩ := last_line_end std.ends j
    have := h2 e' i (by omega) (by omega) g3 g4 (by rw [← hd]; congr 2; omega)
    have w1 := intact 0 (e' + 1) (by omega) (by omega) (by omega)
    have w2 := intact 0 (e + 1 + j) (by omega) (by omega) hj
    rw [show e' + 1 + i = e + 1 + j by omega, (intact_bits w2 hd).1, (intact_bits w2 hd).2,
      (intact_bits w1 g3.2).1, (intact_bits w1 g3.2).2,
      (std.idle e' g1 g3).1, (std.idle e' g1 g3).2] at this
    exact this
  induction j with
  | zero => exact blank 0 hnc std.ends.2
  | succ j ih =>
    cases hd : (x (e + 1 + (j + 1))).de
    · exact blank (j + 1) hnc hd
    · have := h3 (e + 1 + j) (by omega) hnc hd
      have hh := std.hold (e + 1 + j) (by omega) hd
      have ih := ih (by omega)
      rw [show e + 1 + (j + 1) = e + 1 + j + 1 by omega, this.1, this.2, ih.1, ih.2, hh.1, hh.2]
      exact ⟨rfl, rfl⟩

/-- **C111** What holds of it: the damage is bounded.  The lanes arrive intact from clock `n0` on but for
clock `c`, whose words may be anything; blanking lasts at least four clocks each time.  The receiver shows
all clocks before `c` (from the first line end `e` after lock on).  And it shows all clocks after a line end
`e1` that comes after another ten blanking clocks `n1 … n1 + 9`, later than `c`, and another line of at
least 15 pixels. -/
theorem C111_bounded_partial (s0 : Receiver.State) (hs0 : Registers s0) (x : Nat → Phy) (k : Nat → Nat)
    (lead bits : Nat → Nat → Bool) (n0 f g c : Nat) (tr : Training x n0 f g)
    (hblank : ∀ n, n0 ≤ n → (x n).de = true → (x (n + 1)).de = false →
      (x (n + 2)).de = false ∧ (x (n + 3)).de = false ∧ (x (n + 4)).de = false)
    (hskew : ∀ i j, i < 3 → j < 3 → k i ≤ k j + 70) (hc : g + 15 ≤ c)
    (hhit : ∀ i n, i < 3 → n0 ≤ n → n ≠ c → ¬ Hit x k lead bits i n)
    (ph pv : Bool) (e : Nat) (he : g ≤ e) (std : StandardSyncs x ph pv e)
    (n1 f1 g1 e1 : Nat) (tr1 : Training x n1 f1 g1) (hcn : c < n1) (he1 : g1 ≤ e1) (hee : e ≤ e1)
    (hend : LineEnd x e1) :
    ∃ L L', (∀ i, i < 3 → k i / 10 + 2 ≤ L ∧ L ≤ k i / 10 + 23 ∧ k i / 10 + 2 ≤ L' ∧ L' ≤ k i / 10 + 23) ∧
      (∀ n, e < n → n < c → Shows s0 bits x ph pv L n) ∧ ∀ n, e1 < n → Shows s0 bits x ph pv L' n := by
  have hw : ∀ i n, i < 3 → n0 ≤ n → n ≠ c →
      receivedWord (bits i) (k i) n = sentWord (fun u => lane i (x u)) n :=
    fun i n hi hn hne => not_hit (hhit i n hi hn hne)
  have hn0 : n0 + 10 ≤ g := by have := tr.later; have := tr.long; omega
  have hl : ∀ i, i < 3 → LaneWords (k i) (bits i) n0 := fun i hi =>
    rare_lane (i := fun u => lane i (x u)) (fun n h1 h2 => hw i n hi h1 (by omega))
      (fun n m hn hne h1 h2 => by
        have : n = c := Classical.byContradiction fun hc => hne (hw i n hi hn hc)
        exact hw i m hi (by omega) (by omega))
      ⟨fun n h1 h2 => by rw [lane_de]; exact tr.blank n h1 h2,
        fun n hn h1 h2 => by simp only [lane_de] at h1 h2 ⊢; exact hblank n hn h1 h2⟩
  obtain ⟨L, hL, h1⟩ := shown_until s0 hs0 x k bits n0 f g c hl
    (fun i n hi h1 h2 => hw i n hi h1 (by omega)) hc tr hskew ph pv e he std
  obtain ⟨L', hL', h2⟩ := C110_forgotten s0 hs0 x k lead bits n1 f1 g1 (fun i p hi hp => by
      refine Classical.byContradiction fun hne => hhit i ((p - k i) / 10 - 4) hi (by omega) (by omega)
        ⟨(p - k i) % 10, by omega, ?_⟩
      rwa [show k i + 10 * ((p - k i) / 10 - 4 + 4) + (p - k i) % 10 = p by omega])
    tr1 hskew ph pv e1 he1 ⟨hend, fun n hn => std.idle n (by omega), fun n hn => std.hold n (by omega)⟩
  exact ⟨L, L', fun i hi => ⟨(hL i hi).1, (hL i hi).2, hL' i hi⟩, h1, h2⟩

/-- Hypotheses of C111: the example of C80 with a wrong bit in the blanking clock 158; the next ten blanking
clocks begin at 192. -/
example : Training rxVideo 0 28 48 ∧
    (∀ n, 0 ≤ n → (rxVideo n).de = true → (rxVideo (n + 1)).de = false →
      (rxVideo (n + 2)).de = false ∧ (rxVideo (n + 3)).de = false ∧ (rxVideo (n + 4)).de = false) ∧
    (∀ i j, i < 3 → j < 3 → rxDelay i ≤ rxDelay j + 70) ∧ 48 + 15 ≤ 158 ∧
    (∀ i n, i < 3 → 0 ≤ n → n ≠ 158 → ¬ Hit rxVideo rxDelay (fun _ _ => true) damagedBits i n) ∧
    Hit rxVideo rxDelay (fun _ _ => true) damagedBits 1 158 ∧
    StandardSyncs rxVideo true false 95 ∧ Training rxVideo 192 220 240 ∧ LineEnd rxVideo 287 := by
  refine ⟨rxVideo_training, fun n _ h1 h2 => ?_, rxDelay_skew, by omega,
    fun i n _ _ hne h => hne (damaged_hit i n h).2, ⟨0, by omega, ?_⟩, rxVideo_standard,
    ⟨fun n h1 h2 => decide_eq_false (by omega), fun n _ h => ?_, by omega, by decide,
      fun n h1 h2 => decide_eq_true (by omega), by decide, by omega⟩, by decide, by decide⟩
  · have h1 := of_decide_eq_true h1
    have h2 := of_decide_eq_false h2
    exact ⟨decide_eq_false (by omega), decide_eq_false (by omega), decide_eq_false (by omega)⟩
  · show (laneBits rxVideo rxDelay (fun _ _ => true) 1 (28 + 10 * (158 + 4) + 0) ^^ true) ≠
      laneBits rxVideo rxDelay (fun _ _ => true) 1 (28 + 10 * (158 + 4) + 0)
    cases laneBits rxVideo rxDelay (fun _ _ => true) 1 (28 + 10 * (158 + 4) + 0) <;> simp
  · have h := of_decide_eq_false h
    by_cases h0 : n % 48 = 47
    · exact .inr (decide_eq_false (by omega))
    · exact .inl (decide_eq_false (by omega))

end Verif.Props
