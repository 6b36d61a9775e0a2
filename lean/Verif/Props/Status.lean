import Verif.Spec.Status
import Verif.Props.Receiver
import Verif.Proofs.Gated

/-!
# C95, C96: what software reads of the receiver's state
-/

namespace Verif.Props

open Verif.Status Spec.Status Spec.Stream Spec.Receiver Spec.Serial Verif.VideoOut Verif.Gated

section Register

variable {w : Nat} {src : Nat → BitVec w} {edge : Nat → Bool} {old : Nat → BitVec w}

theorem register_edge {t : Nat} (h : edge t = true) : register src edge old (t + 1) =
    ⟨sample (src t) (src (t + 1)) (old t), (register src edge old t).s0⟩ := by
  show Multi.step _ (edge t) _ _ _ = _
  rw [h]; rfl

theorem register_hold {t : Nat} (h : edge t = false) :
    register src edge old (t + 1) = register src edge old t := by
  show Multi.step _ (edge t) _ _ _ = _
  rw [h]; rfl

theorem register_keep {t : Nat} (j : Nat) (h : ∀ u, u < j → edge (t + u) = false) :
    register src edge old (t + j) = register src edge old t := by
  induction j with
  | zero => rfl
  | succ j ih =>
    rw [show t + (j + 1) = t + j + 1 by omega, register_hold (h j (by omega)),
      ih (fun u hu => h u (by omega))]

theorem sample_bit (a b o : BitVec w) (i : Nat) (hi : i < w) :
    (sample a b o).getLsbD i = if o.getLsbD i then a.getLsbD i else b.getLsbD i := by
  unfold sample
  rw [BitVec.getLsbD_or, BitVec.getLsbD_and, BitVec.getLsbD_and, BitVec.getLsbD_not]
  cases o.getLsbD i <;> simp [hi]

theorem sample_same (a o : BitVec w) : sample a a o = a := by
  apply BitVec.eq_of_getLsbD_eq
  intro i hi
  rw [sample_bit _ _ _ _ hi]
  split <;> rfl

/-- The full property **C95**: whatever software reads in a status register is a value that the
source had. -/
def C95_statement : Prop :=
  ∀ (w : Nat) (src : Nat → BitVec w) (edge : Nat → Bool) (old : Nat → BitVec w) (t : Nat),
    src 0 = 0 → ∃ u, u ≤ t ∧ (register src edge old t).status = src u

/-- **C95** is false of the code: the bits of a register pass the clock boundary independently.  A
horizontal resolution that changes from 1023 to 1024 at the instant of a system clock edge can be read
as 2047. -/
theorem C95_violated : ¬ C95_statement := by
  intro h
  let src : Nat → BitVec 11 := fun t => if t = 0 then 0 else if t < 4 then 1023 else 1024
  obtain ⟨u, -, hu⟩ := h 11 src (fun _ => true) (fun _ => 1023) 5 rfl
  have h1 : (register src (fun _ => true) (fun _ => 1023) 5).status = 2047 := by decide +kernel
  rw [h1] at hu
  simp only [src] at hu
  split at hu
  · exact absurd hu (by decide)
  · split at hu
    · exact absurd hu (by decide)
    · exact absurd hu (by decide)

/-- **C95** (proved part): every single bit that is read was the source's at the system clock edge
before the last one (`p` and `q` are the last two), immediately before or after that edge.  In
particular one-bit flags are never wrong, only late. -/
theorem C95_bits_partial (src : Nat → BitVec w) (edge : Nat → Bool) (old : Nat → BitVec w)
    (p m n : Nat) (hp : edge p = true) (hm : ∀ u, u < m → edge (p + 1 + u) = false)
    (hq : edge (p + 1 + m) = true) (hn : ∀ u, u < n → edge (p + 1 + m + 1 + u) = false)
    (i : Nat) (hi : i < w) :
    ((register src edge old (p + 1 + m + 1 + n)).status.getLsbD i = (src p).getLsbD i ∨
      (register src edge old (p + 1 + m + 1 + n)).status.getLsbD i = (src (p + 1)).getLsbD i) := by
  rw [register_keep n hn, register_edge hq, register_keep m hm, register_edge hp]
  show (sample _ _ _).getLsbD i = _ ∨ (sample _ _ _).getLsbD i = _
  rw [sample_bit _ _ _ _ hi]
  split
  · exact Or.inl rfl
  · exact Or.inr rfl

/-- **C95** (proved part): if the source does not change at the very instant of the system clock edge
`p`, then after the next edge its value at `p` is read, all bits together. -/
theorem C95_whole_partial (src : Nat → BitVec w) (edge : Nat → Bool) (old : Nat → BitVec w)
    (p m n : Nat) (hp : edge p = true) (hm : ∀ u, u < m → edge (p + 1 + u) = false)
    (hq : edge (p + 1 + m) = true) (hn : ∀ u, u < n → edge (p + 1 + m + 1 + u) = false)
    (hs : src (p + 1) = src p) :
    (register src edge old (p + 1 + m + 1 + n)).status = src p := by
  rw [register_keep n hn, register_edge hq, register_keep m hm, register_edge hp, hs]
  exact sample_same _ _

/-- **C95** (proved part): a value that has been stable for two system clocks is read as it is. -/
theorem C95_stable_partial (src : Nat → BitVec w) (edge : Nat → Bool) (old : Nat → BitVec w)
    (v : BitVec w) (a n : Nat) (hv : ∀ u, u ≤ n → src (a + u) = v) (h2 : 2 ≤ countIn edge a n) :
    (register src edge old (a + n)).status = v := by
  have key : ∀ n, (∀ u, u ≤ n → src (a + u) = v) →
      (1 ≤ countIn edge a n → (register src edge old (a + n)).s0 = v) ∧
      (2 ≤ countIn edge a n → (register src edge old (a + n)).status = v) := by
    intro n
    induction n with
    | zero => intro _; simp [countIn]
    | succ n ih =>
      intro hv
      have ih := ih (fun u hu => hv u (by omega))
      rw [countIn]
      cases he : edge (a + n) with
      | false =>
        rw [show a + (n + 1) = a + n + 1 by omega, register_hold he]
        simpa using ih
      | true =>
        rw [show a + (n + 1) = a + n + 1 by omega, register_edge he, hv n (by omega),
          show a + n + 1 = a + (n + 1) by omega, hv (n + 1) (by omega), sample_same]
        refine ⟨fun _ => rfl, fun h => ih.1 ?_⟩
        rw [if_pos rfl] at h; omega
  exact (key n hv).2 h2

/-- A value that never changes again is read for ever from some instant on, if the system clock runs. -/
theorem register_settles (src : Nat → BitVec w) (edge : Nat → Bool) (old : Nat → BitVec w)
    (v : BitVec w) (a : Nat) (hv : ∀ u, a ≤ u → src u = v)
    (run : ∀ T, ∃ u, T ≤ u ∧ edge u = true) :
    ∃ T, ∀ t, T ≤ t → (register src edge old t).status = v := by
  obtain ⟨p, hp, ep⟩ := run a
  obtain ⟨q, hq, eq⟩ := run (p + 1)
  refine ⟨q + 1, fun t ht => ?_⟩
  obtain ⟨n, rfl⟩ : ∃ n, t = a + n := ⟨t - a, by omega⟩
  refine C95_stable_partial src edge old v a n (fun u _ => hv _ (by omega)) ?_
  have h1 := ticks_add edge a n
  have h2 := ticks_lt edge ep (show p < q by omega)
  have h3 := ticks_lt edge eq (show q < a + n by omega)
  have h4 := ticks_mono edge (show a ≤ p by omega)
  omega

end Register

/-- Hypotheses of C95: a resolution that becomes 640 is read as 640 after two system clock edges. -/
example : (∀ u, u ≤ 5 → (if 3 + u < 3 then 0#11 else 640#11) = 640#11) ∧
    2 ≤ countIn (fun t => t % 2 == 0) 3 5 ∧
    (register (fun t => if t < 3 then 0#11 else 640#11) (fun t => t % 2 == 0) (fun _ => 0) 4).status =
      0 ∧
    (register (fun t => if t < 3 then 0#11 else 640#11) (fun t => t % 2 == 0) (fun _ => 0) 8).status =
      640 := by
  refine ⟨fun u _ => if_neg (by omega), by decide +kernel, by decide +kernel, by decide +kernel⟩

/-- Hypotheses of the other two, with edges at 2 and 4: at the first one bit 0 is sampled early and bit 2
late while the source changes from 3 to 4; at the second one the source is stable. -/
example : let src : Nat → BitVec 3 := fun t => if t ≤ 2 then 3 else 4
    let edge : Nat → Bool := fun t => t % 2 == 0
    edge 2 = true ∧ (∀ u, u < 1 → edge (2 + 1 + u) = false) ∧ edge (2 + 1 + 1) = true ∧
    (∀ u, u < 1 → edge (2 + 1 + 1 + 1 + u) = false) ∧
    (register src edge (fun _ => 1) 6).status = 5 ∧
    src (4 + 1) = src 4 ∧ (register src edge (fun _ => 1) 7).status = 4 := by
  decide +kernel

/-! ### C96: the whole receiver -/

/-- The last instant up to `m` at which `p` held. -/
theorem last_before {p : Nat → Prop} (c m : Nat) (hc : p c) (h : c ≤ m) :
    ∃ a, c ≤ a ∧ a ≤ m ∧ p a ∧ ∀ u, a < u → u ≤ m → ¬ p u := by
  induction m with
  | zero => exact ⟨c, Nat.le_refl _, h, hc, fun u h1 h2 => absurd h1 (by omega)⟩
  | succ m ih =>
    by_cases hp : p (m + 1)
    · exact ⟨m + 1, h, Nat.le_refl _, hp, fun u h1 h2 => absurd h1 (by omega)⟩
    · have hcm : c ≤ m := by
        rcases Nat.lt_or_eq_of_le h with h' | rfl
        · omega
        · exact absurd hc hp
      obtain ⟨a, h1, h2, h3, h4⟩ := ih hcm
      refine ⟨a, h1, by omega, h3, fun u hu hu' => ?_⟩
      rcases Nat.lt_or_eq_of_le hu' with h' | rfl
      · exact h4 u hu (by omega)
      · exact hp

section Composite

variable {y : Nat → Status.In}

/-- At the pixel clocks the three lanes deliver the bits of the transmitter `x`, delayed by `k`
bits. -/
def StatusLanes (x : Nat → Phy) (k : Nat → Nat) (lead : Nat → Nat → Bool) (y : Nat → Status.In) :
    Prop :=
  ∀ t, (y t).pixEdge = true → (y t).raw =
    let c := countIn (fun u => (y u).pixEdge) 0 t
    ⟨deserialised (laneBits x k lead 0) c, deserialised (laneBits x k lead 1) c,
      deserialised (laneBits x k lead 2) c⟩

theorem status_rx {x : Nat → Phy} {k : Nat → Nat} {lead : Nat → Nat → Bool}
    (hl : StatusLanes x k lead y) (t : Nat) :
    (status y t).rx = rxState x k lead (ticks (fun u => (y u).pixEdge) t) := by
  refine trace_ticks Receiver.step Receiver.reset (fun u => (y u).pixEdge)
    (fun t => (status y t).rx) _ rfl (fun t => ?_) t
  show (if (y t).pixEdge then Receiver.step (status y t).rx (y t).raw else _) = _
  by_cases h : (y t).pixEdge = true
  · rw [if_pos h, if_pos h, hl t h]
  · rw [if_neg h, if_neg h]

theorem status_hres (t : Nat) : (status y t).hres =
    register (fun u => hresOf (status y u).rx) (fun u => (y u).sysEdge) (fun u => (y u).hres) t := by
  induction t with
  | zero => rfl
  | succ t ih => show Multi.step (status y t).hres _ _ _ _ = _; rw [ih]; rfl

theorem status_vres (t : Nat) : (status y t).vres =
    register (fun u => vresOf (status y u).rx) (fun u => (y u).sysEdge) (fun u => (y u).vres) t := by
  induction t with
  | zero => rfl
  | succ t ih => show Multi.step (status y t).vres _ _ _ _ = _; rw [ih]; rfl

theorem status_chan (t : Nat) : (status y t).chan =
    register (fun u => chanOf (status y u).rx) (fun u => (y u).sysEdge) (fun u => (y u).chan) t := by
  induction t with
  | zero => rfl
  | succ t ih => show Multi.step (status y t).chan _ _ _ _ = _; rw [ih]; rfl

theorem status_synced (i t : Nat) : (status y t).synced i =
    register (fun u => syncedOf (status y u).rx i) (fun u => (y u).sysEdge)
      (fun u => (y u).synced i) t := by
  induction t with
  | zero => rfl
  | succ t ih => show Multi.step ((status y t).synced i) _ _ _ _ = _; rw [ih]; rfl

theorem status_pos (i t : Nat) : (status y t).ctl_pos i =
    register (fun u => posOf (status y u).rx i) (fun u => (y u).sysEdge)
      (fun u => (y u).ctl_pos i) t := by
  induction t with
  | zero => rfl
  | succ t ih => show Multi.step ((status y t).ctl_pos i) _ _ _ _ = _; rw [ih]; rfl

/-- The resolution detector settles. -/
theorem resolution_settles (x : Nat → Phy) (k : Nat → Nat) (lead : Nat → Nat → Bool) (n0 f g : Nat)
    (tr : Training x n0 f g) (hskew : ∀ i j, i < 3 → j < 3 → k i ≤ k j + 70)
    (ph pv : Bool) (e : Nat) (he : g ≤ e) (std : StandardSyncs x ph pv e)
    (H V c : Nat) (size : ConstantSize x pv H V c) :
    ∃ M, ∀ m, M ≤ m → (rxState x k lead m).res.hcounter_st = H % 2 ^ 11 ∧
      (rxState x k lead m).res.vcounter_st = V % 2 ^ 11 := by
  obtain ⟨L, -, hh, hv⟩ := C81_resolution x k lead n0 f g tr hskew ph pv e he std
  -- a line end, and then two frame starts, after everything has begun
  obtain ⟨b1, hb1, l1⟩ := size.more_lines (c + e + 1)
  obtain ⟨b2, hb2, l2⟩ := size.more_lines (b1 + 2)
  obtain ⟨s1, hs1, f1⟩ := size.more_frames (c + e + 1)
  obtain ⟨s2, hs2, f2⟩ := size.more_frames (s1 + 1)
  refine ⟨b2 + s2 + 2 + L, fun m hm => ⟨?_, ?_⟩⟩
  · -- the last line end before `m - L`
    obtain ⟨a, ha1, ha2, ha3, ha4⟩ := last_before (p := LineEnd x) b2 (m - L - 1) l2 (by omega)
    -- where that line begins
    obtain ⟨b, hb3, hb4, hb5, hb6⟩ := last_before (p := fun u => (x u).de = false) (b1 + 1) a l1.2
      (by omega)
    have hba : b < a := by
      rcases Nat.lt_or_eq_of_le hb4 with h | rfl
      · exact h
      · exact absurd (ha3.1.symm.trans hb5) (by decide)
    have hact : ∀ u, u < a - b → (x (b + 1 + u)).de = true := by
      intro u hu
      have := hb6 (b + 1 + u) (by omega) (by omega)
      simpa using this
    have hend : (x (b + 1 + (a - b))).de = false := by
      rw [show b + 1 + (a - b) = a + 1 by omega]; exact ha3.2
    have hH : a - b = H := size.lines b (a - b) (by omega) (by omega) hb5 hact hend
    have := hh b (a - b) (m - L - (a + 1)) (by omega) (by omega) hb5 hact hend
      (fun u hu => ha4 _ (by omega) (by omega))
    rw [show b + 1 + (a - b) + (m - L - (a + 1)) + L = m by omega, hH] at this
    exact this
  · obtain ⟨a, ha1, ha2, ha3, ha4⟩ := last_before (p := fun u => FrameSync x pv u = true) s2
      (m - L - 1) f2 (by omega)
    obtain ⟨b, hb1, hb2, hb3, hb4⟩ := last_before (p := fun u => FrameSync x pv u = true) s1
      (a - 1) f1 (by omega)
    have hno : ∀ u, u < a - b - 1 → FrameSync x pv (b + 1 + u) = false := by
      intro u hu
      have := hb4 (b + 1 + u) (by omega) (by omega)
      simpa using this
    have hfs : FrameSync x pv (b + 1 + (a - b - 1)) = true := by
      rw [show b + 1 + (a - b - 1) = a by omega]; exact ha3
    have hV := size.frames b (a - b - 1) (by omega) hb3 hno hfs
    have := hv b (a - b - 1) (m - L - (a + 1)) (by omega) hb3 hno hfs (fun u hu => by
      have := ha4 (b + 1 + (a - b - 1) + 1 + u) (by omega) (by omega)
      simpa using this)
    rw [show b + 1 + (a - b - 1) + 1 + (m - L - (a + 1)) + L = m by omega, hV] at this
    exact this

/-- **C96** What software reads of a locked receiver.  A transmitter sends pictures of constant size,
`H` by `V`, in any standard timing; the lanes arrive with any delays up to 70 bits apart; both clocks
run, and the bits of the status registers may be sampled as early or late as they like.  From some
instant on, and for ever, software reads: all three lanes and the channels synchronised, the true bit
offset of each lane, and the resolution `H` by `V`. -/
theorem C96_status (x : Nat → Phy) (k : Nat → Nat) (lead : Nat → Nat → Bool) (n0 f g : Nat)
    (tr : Training x n0 f g) (hskew : ∀ i j, i < 3 → j < 3 → k i ≤ k j + 70)
    (ph pv : Bool) (e : Nat) (he : g ≤ e) (std : StandardSyncs x ph pv e)
    (H V c : Nat) (size : ConstantSize x pv H V c) (hH : H < 2 ^ 11) (hV : V < 2 ^ 11)
    (y : Nat → Status.In) (lanes : StatusLanes x k lead y)
    (pix : ∀ T, ∃ u, T ≤ u ∧ (y u).pixEdge = true)
    (sys : ∀ T, ∃ u, T ≤ u ∧ (y u).sysEdge = true) :
    ∃ T, ∀ t, T ≤ t →
      (status y t).hres.status.toNat = H ∧ (status y t).vres.status.toNat = V ∧
      (status y t).chan.status = 1#1 ∧
      ∀ i, i < 3 → ((status y t).synced i).status = 1#1 ∧
        ((status y t).ctl_pos i).status.toNat = k i % 10 := by
  -- instants at which the pixel clock has reached any given count
  have reach : ∀ M, ∃ a, ∀ t, a ≤ t → M ≤ ticks (fun u => (y u).pixEdge) t := by
    intro M
    induction M with
    | zero => exact ⟨0, fun _ _ => Nat.zero_le _⟩
    | succ M ih =>
      obtain ⟨a, ha⟩ := ih
      obtain ⟨u, hu, eu⟩ := pix a
      refine ⟨u + 1, fun t ht => ?_⟩
      have h1 := ha u hu
      have h2 := ticks_lt (fun u => (y u).pixEdge) eu (show u < t by omega)
      omega
  -- a source that settles in the pixel clock domain is read for ever
  have settle : ∀ {w : Nat} (src : Receiver.State → BitVec w) (old : Nat → BitVec w) (v : BitVec w),
      (∃ M, ∀ m, M ≤ m → src (rxState x k lead m) = v) →
      ∃ T, ∀ t, T ≤ t → (register (fun u => src (status y u).rx) (fun u => (y u).sysEdge) old t).status
        = v := by
    rintro w src old v ⟨M, hM⟩
    obtain ⟨a, ha⟩ := reach M
    refine register_settles _ _ old v a (fun u hu => ?_) sys
    show src (status y u).rx = v
    rw [status_rx lanes]
    exact hM _ (ha u hu)
  obtain ⟨M1, hM1⟩ := resolution_settles x k lead n0 f g tr hskew ph pv e he std H V c size
  obtain ⟨T1, hT1⟩ := settle hresOf (fun u => (y u).hres) (BitVec.ofNat 11 H) ⟨M1, fun m hm => by
    show BitVec.ofNat 11 _ = _
    rw [(hM1 m hm).1, Nat.mod_eq_of_lt hH]⟩
  obtain ⟨T2, hT2⟩ := settle vresOf (fun u => (y u).vres) (BitVec.ofNat 11 V) ⟨M1, fun m hm => by
    show BitVec.ofNat 11 _ = _
    rw [(hM1 m hm).2, Nat.mod_eq_of_lt hV]⟩
  obtain ⟨T3, hT3⟩ := settle chanOf (fun u => (y u).chan) 1#1 (by
    obtain ⟨T, hs⟩ := rx_intact_synced reset_registers lead tr hskew
    refine ⟨T + 1, fun m hm => ?_⟩
    have := hs (m - T - 1)
    rw [show T + (m - T - 1) + 1 = m by omega] at this
    show BitVec.ofBool (rxFrom Receiver.reset x k lead m).chan.chan_synced = _
    rw [this]; rfl)
  have lane_at : ∀ i, i < 3 → ∀ m, Status.laneOf (rxState x k lead m) i =
      laneState (laneBits x k lead i) m := by
    intro i hi m
    have : i = 0 ∨ i = 1 ∨ i = 2 := by omega
    rcases this with rfl | rfl | rfl
    · exact rx_lane0 Receiver.reset (laneBits x k lead) m
    · exact rx_lane1 Receiver.reset (laneBits x k lead) m
    · exact rx_lane2 Receiver.reset (laneBits x k lead) m
  have lane_de : ∀ i u, (lane i (x u)).de = (x u).de := by
    intro i u
    unfold lane
    split <;> rfl
  have lock : ∀ i, i < 3 → ∃ M, ∀ m, M ≤ m →
      (Status.laneOf (rxState x k lead m) i).charsync.synced = true ∧
      (Status.laneOf (rxState x k lead m) i).charsync.word_sel = k i % 10 := by
    intro i hi
    refine ⟨n0 + 4 + k i / 10 + 8 + 2 + 1, fun m hm => ?_⟩
    have h := lane_lock Receiver.Lane.reset (Nat.zero_le _) (fun u => lane i (x u)) (k i) (lead i) n0
      (fun n h1 h2 => by rw [lane_de]; exact tr.blank n h1 h2)
      (fun n h1 h2 => by rw [lane_de] at h2 ⊢; rw [lane_de]; exact tr.iso n h1 h2) (m - 1) (by omega)
    rw [lane_at i hi]
    rw [show m - 1 + 1 = m by omega] at h
    exact ⟨h.1, h.2.1⟩
  have T45 : ∃ T, ∀ t, T ≤ t → ∀ i, i < 3 → ((status y t).synced i).status = 1#1 ∧
        ((status y t).ctl_pos i).status.toNat = k i % 10 := by
    have one : ∀ i, i < 3 → ∃ T, ∀ t, T ≤ t → ((status y t).synced i).status = 1#1 ∧
        ((status y t).ctl_pos i).status.toNat = k i % 10 := by
      intro i hi
      obtain ⟨M, hM⟩ := lock i hi
      obtain ⟨T, hT⟩ := settle (fun s => syncedOf s i) (fun u => (y u).synced i) 1#1
        ⟨M, fun m hm => by show BitVec.ofBool _ = _; rw [(hM m hm).1]; rfl⟩
      obtain ⟨T', hT'⟩ := settle (fun s => posOf s i) (fun u => (y u).ctl_pos i)
        (BitVec.ofNat 4 (k i % 10)) ⟨M, fun m hm => by show BitVec.ofNat 4 _ = _; rw [(hM m hm).2]⟩
      refine ⟨T + T', fun t ht => ⟨?_, ?_⟩⟩
      · rw [status_synced]; exact hT t (by omega)
      · rw [status_pos]
        rw [hT' t (by omega), BitVec.toNat_ofNat]
        omega
    obtain ⟨a, ha⟩ := one 0 (by omega)
    obtain ⟨b, hb⟩ := one 1 (by omega)
    obtain ⟨d, hd⟩ := one 2 (by omega)
    refine ⟨a + b + d, fun t ht i hi => ?_⟩
    have : i = 0 ∨ i = 1 ∨ i = 2 := by omega
    rcases this with rfl | rfl | rfl
    · exact ha t (by omega)
    · exact hb t (by omega)
    · exact hd t (by omega)
  obtain ⟨T4, hT4⟩ := T45
  refine ⟨T1 + T2 + T3 + T4, fun t ht => ⟨?_, ?_, ?_, hT4 t (by omega)⟩⟩
  · rw [status_hres, hT1 t (by omega), BitVec.toNat_ofNat, Nat.mod_eq_of_lt hH]
  · rw [status_vres, hT2 t (by omega), BitVec.toNat_ofNat, Nat.mod_eq_of_lt hV]
  · rw [status_chan]; exact hT3 t (by omega)

/-! The hypotheses hold of the picture of `Props/Receiver`, 20 pixels by 5 lines, with the system clock
at three quarters of the pixel clock's rate. -/

theorem countIn_ext (f g : Nat → Bool) (a b n : Nat) (h : ∀ u, u < n → f (a + u) = g (b + u)) :
    countIn f a n = countIn g b n := by
  induction n with
  | zero => rfl
  | succ n ih => rw [countIn, countIn, ih (fun u hu => h u (by omega)), h n (by omega)]

theorem rxVideo_frame (u : Nat) : FrameSync rxVideo false u = true ↔ u % 240 = 194 := by
  simp only [FrameSync, rxVideo, Bool.and_eq_true]
  constructor
  · rintro ⟨h1, h2⟩
    simp at h1 h2
    omega
  · intro h
    rw [decide_eq_false (by omega), decide_eq_true (by omega)]
    exact ⟨rfl, rfl⟩

theorem rxVideo_size : ConstantSize rxVideo false 20 5 0 where
  lines := fun b n _ hn h1 h2 h3 => by
    simp only [rxVideo, decide_eq_false_iff_not, decide_eq_true_eq] at h1 h2 h3
    have h4 := h2 0 hn
    have h5 : ¬ n < 20 := fun h => h3 (by omega)
    have h6 : ¬ 20 < n := fun h => by
      have := h2 20 h
      omega
    omega
  frames := fun b n _ h1 h2 h3 => by
    rw [rxVideo_frame] at h1 h3
    have h5 : ¬ n < 239 := fun h => by omega
    have h6 : ¬ 239 < n := fun h => by
      have := (rxVideo_frame (b + 1 + 239)).2 (by omega)
      rw [h2 239 h] at this
      cases this
    have h7 : n = 239 := by omega
    subst h7
    have e : countIn (lineEnd rxVideo) 195 239 = 5 := by decide +kernel
    rw [← e]
    refine countIn_ext _ _ _ _ _ (fun u _ => ?_)
    simp only [lineEnd, rxVideo]
    rw [show (b + 1 + u) % 48 = (195 + u) % 48 by omega,
      show (b + 1 + u + 1) % 48 = (195 + u + 1) % 48 by omega]
  more_lines := fun T => ⟨48 * T + 47, by omega,
    decide_eq_true (by omega), decide_eq_false (by omega)⟩
  more_frames := fun T => ⟨240 * T + 194, by omega, (rxVideo_frame _).2 (by omega)⟩

/-- Instants of the example: pixel clock edges at multiples of 3, system clock edges at multiples of 4;
where they coincide odd bits are sampled early. -/
def statusVideo (t : Nat) : Status.In :=
  let c := (t + 2) / 3
  { pixEdge := t % 3 == 0
    raw := ⟨deserialised (laneBits rxVideo rxDelay (fun _ _ => true) 0) c,
      deserialised (laneBits rxVideo rxDelay (fun _ _ => true) 1) c,
      deserialised (laneBits rxVideo rxDelay (fun _ _ => true) 2) c⟩
    sysEdge := t % 4 == 0
    hres := 0x2aa, vres := 0x2aa, chan := 0, synced := fun _ => 0, ctl_pos := fun _ => 0xa }

theorem statusVideo_lanes : StatusLanes rxVideo rxDelay (fun _ _ => true) statusVideo := by
  have h : ∀ t, countIn (fun u => (statusVideo u).pixEdge) 0 t = (t + 2) / 3 := by
    intro t
    induction t with
    | zero => rfl
    | succ t ih =>
      rw [countIn, ih]
      simp only [statusVideo, Nat.zero_add, beq_iff_eq]
      split <;> omega
  intro t _
  show _ = (_ : Receiver.In)
  rw [h]
  rfl

example : ∃ T, ∀ t, T ≤ t →
    (status statusVideo t).hres.status.toNat = 20 ∧ (status statusVideo t).vres.status.toNat = 5 ∧
    (status statusVideo t).chan.status = 1#1 ∧
    ∀ i, i < 3 → ((status statusVideo t).synced i).status = 1#1 ∧
      ((status statusVideo t).ctl_pos i).status.toNat = rxDelay i % 10 :=
  C96_status rxVideo rxDelay (fun _ _ => true) 0 28 48 rxVideo_training
    (by
      have : ∀ i, i < 3 → ∀ j, j < 3 → rxDelay i ≤ rxDelay j + 70 := by decide
      exact fun i j hi hj => this i hi j hj) true false 95 (by omega) rxVideo_standard 20 5 0
    rxVideo_size (by decide) (by decide) statusVideo statusVideo_lanes
    (fun T => ⟨3 * T, by omega, beq_iff_eq.2 (by omega)⟩)
    (fun T => ⟨4 * T, by omega, beq_iff_eq.2 (by omega)⟩)

end Composite

end Verif.Props
