import Verif.Proofs.Terminal
import Verif.Proofs.Gated

/-!
# Text terminal: properties

`run m t` is the display side at clock `t` of the `vga` clock domain after reset, when the memory
holds `m u` at clock `u`.
-/

namespace Verif.Props

open Terminal
open Spec.Terminal (pixelColour charAddr glyphAddr)

/-! ## Sync timing -/

/-- **C47** (partial: with 801 instead of the documented 800 clocks per line) Whatever the memory
holds, hsync repeats a line of 801 clocks, the first 96 of them low. -/
theorem C47_hsync_partial (m : Nat → Mem) (n p : Nat) (hp : p < 801) :
    (run m (n * 801 + p + 1)).hsync = decide (96 ≤ p) := by
  rw [hsync_eq, show (n * 801 + p) % 801 = p by omega]

/-- **C47** (partial) vsync repeats a frame of 521 lines; it is low during lines 0 and 1, except
that from the second frame on its low pulse starts one clock after the line starts. -/
theorem C47_vsync_partial (m : Nat → Mem) (f l p : Nat) (hl : l < 521) (hp : p < 801) :
    (run m ((f * 521 + l) * 801 + p + 1)).vsync =
      decide (2 ≤ l ∨ f ≠ 0 ∧ l = 0 ∧ p = 0) := by
  rw [vsync_eq]
  refine decide_eq_decide.2 ?_
  unfold lineAt
  split <;> omega

/-- C47: from some clock on, lines of 800 clocks, the first 96 with hsync low, and frames of 521 lines,
the first two with vsync low. -/
def C47_statement (m : Nat → Mem) : Prop :=
  ∃ T, ∀ l p, p < 800 → (run m (T + l * 800 + p)).hsync = decide (96 ≤ p) ∧
    (run m (T + l * 800 + p)).vsync = decide (2 ≤ l % 521)

/-- **C47** is violated: the documentation says that a line lasts 800 clocks, but hsync does not
repeat after 800 clocks from any time on. -/
theorem C47_violated (m : Nat → Mem) : ¬ C47_statement m ∧
    ¬ ∃ T, ∀ t, T ≤ t → (run m (t + 800)).hsync = (run m t).hsync := by
  have key : ¬ ∃ T, ∀ t, T ≤ t → (run m (t + 800)).hsync = (run m t).hsync := by
    rintro ⟨T, h⟩
    have h1 := C47_hsync_partial m (T + 1) 0 (by omega)
    have h2 := C47_hsync_partial m (T + 1) 800 (by omega)
    have := h ((T + 1) * 801 + 0 + 1) (by omega)
    rw [h1, show (T + 1) * 801 + 0 + 1 + 800 = (T + 1) * 801 + 800 + 1 by omega, h2] at this
    exact absurd this (by decide)
  refine ⟨fun ⟨T, h⟩ => key ⟨T, fun t ht => ?_⟩, key⟩
  have e := Nat.div_add_mod (t - T) 800
  have h1 := (h ((t - T) / 800) ((t - T) % 800) (Nat.mod_lt _ (by decide))).1
  have h2 := (h ((t - T) / 800 + 1) ((t - T) % 800) (Nat.mod_lt _ (by decide))).1
  rw [show T + (t - T) / 800 * 800 + (t - T) % 800 = t by omega] at h1
  rw [show T + ((t - T) / 800 + 1) * 800 + (t - T) % 800 = t + 800 by omega] at h2
  rw [h1, h2]

/-! ## Picture -/

/-- The output colour. -/
def termRgb (s : Vga) : Byte × Byte × Byte := (s.red, s.green, s.blue)

/-- Colour 24-bit values split as the terminal does. -/
def termSplit (c : BitVec 24) : Byte × Byte × Byte :=
  (c.extractLsb' 16 8, c.extractLsb' 8 8, c.extractLsb' 0 8)

theorem lookup_low (c : Byte) :
    termSplit (lookup (c.extractLsb' 0 4)) = Spec.Terminal.vgaPalette (c.toNat % 16) := by
  revert c; decide +kernel

theorem lookup_high (c : Byte) :
    termSplit (lookup (c.extractLsb' 4 4)) = Spec.Terminal.vgaPalette (c.toNat / 16) := by
  revert c; decide +kernel

/-- Clock at which pixel `(x, y)` of frame `f` appears at the outputs: 144 clocks after hsync fell,
in line 31 + `y` after vsync fell. -/
def pixelClock (f x y : Nat) : Nat := (f * 521 + 31 + y) * 801 + 144 + x + 1

theorem pixelClock_eq (f x y : Nat) :
    pixelClock f x y = fetch f y (8 * (x / 8) + 8 + x % 8) + 1 := by
  unfold pixelClock fetch lineStart
  omega

/-- **C48** A pixel shows what the documentation says for the bytes that the memory holds while its
character is fetched: the code 6, the colours 5 and the glyph line 4 clocks before the first
pixel of the character appears. -/
theorem C48_pixel (m : Nat → Mem) (f x y : Nat) (hx : x < 640) (hy : y < 480) (mm : Mem)
    (h3 : m (pixelClock f (8 * (x / 8)) y - 6) (charAddr (x / 8) (y / 16)) =
      mm (charAddr (x / 8) (y / 16)))
    (h4 : m (pixelClock f (8 * (x / 8)) y - 5) (charAddr (x / 8) (y / 16) + 1) =
      mm (charAddr (x / 8) (y / 16) + 1))
    (h5 : m (pixelClock f (8 * (x / 8)) y - 4)
        (glyphAddr (mm (charAddr (x / 8) (y / 16))).toNat (y % 16)) =
      mm (glyphAddr (mm (charAddr (x / 8) (y / 16))).toNat (y % 16))) :
    termRgb (run m (pixelClock f x y)) = pixelColour mm x y := by
  have e : charAddr (x / 8) (y / 16) = 160 * (y / 16) + 2 * (x / 8) := by
    unfold charAddr; omega
  have t3 : pixelClock f (8 * (x / 8)) y - 6 = fetch f y (8 * (x / 8) + 3) := by
    unfold pixelClock fetch lineStart; omega
  have t4 : pixelClock f (8 * (x / 8)) y - 5 = fetch f y (8 * (x / 8) + 4) := by
    unfold pixelClock fetch lineStart; omega
  have t5 : pixelClock f (8 * (x / 8)) y - 4 = fetch f y (8 * (x / 8) + 5) := by
    unfold pixelClock fetch lineStart; omega
  rw [t3, e] at h3
  rw [t4, e] at h4
  rw [t5, e] at h5
  obtain ⟨l1, l2, l3⟩ := load m f y (x / 8) hy (by omega) _ _ _ h3 h4 h5
  obtain ⟨s1, s2, s3⟩ := shift m f y (x / 8) (x % 8) hy (by omega) (by omega)
  obtain ⟨hl, hp⟩ := line_in m f y (136 + (8 * (x / 8) + 8 + x % 8)) hy (by omega)
  rw [show lineStart f y + (136 + (8 * (x / 8) + 8 + x % 8)) =
    fetch f y (8 * (x / 8) + 8 + x % 8) from rfl] at hl hp
  rw [pixelClock_eq, run_succ]
  rw [l1] at s1
  rw [l2] at s2
  rw [l3] at s3
  generalize run m (fetch f y (8 * (x / 8) + 8 + x % 8)) = S at *
  have hs : S.shown = true := by
    simp only [Vga.shown, hl, hp, Bool.and_eq_true, decide_eq_true_eq]
    omega
  show termSplit S.colour = _
  unfold Vga.colour
  rw [hs, if_pos rfl, s1, s2, s3]
  unfold pixelColour
  simp only [e]
  have hb : ∀ (b : Byte) (k : Nat), k < 8 → (b <<< k).getLsbD 7 = b.getLsbD (7 - k) := by
    intro b k hk
    rw [BitVec.getLsbD_shiftLeft]
    simp only [show ¬ 7 < k by omega, decide_false, Bool.not_false, Bool.and_true]
    simp
  rw [hb _ _ (by omega)]
  have hgl : glyphAddr (mm (160 * (y / 16) + 2 * (x / 8))).toNat (y % 16) =
      4800 + 16 * (mm (160 * (y / 16) + 2 * (x / 8))).toNat + y % 16 := by
    unfold glyphAddr; omega
  rw [hgl]
  split
  · exact lookup_low _
  · exact lookup_high _

/-- **C48** In every frame during which the memory holds `mm`, every pixel of the 640 x 480 picture
is as documented. -/
theorem C48_picture (m : Nat → Mem) (f : Nat) (mm : Mem)
    (hm : ∀ t, f * 521 * 801 ≤ t → t < (f + 1) * 521 * 801 → m t = mm) (x y : Nat) (hx : x < 640)
    (hy : y < 480) : termRgb (run m (pixelClock f x y)) = pixelColour mm x y := by
  have h : ∀ d, 4 ≤ d → d ≤ 6 → m (pixelClock f (8 * (x / 8)) y - d) = mm := by
    intro d h1 h2
    apply hm <;> unfold pixelClock <;> omega
  exact C48_pixel m f x y hx hy mm (by rw [h 6 (by omega) (by omega)])
    (by rw [h 5 (by omega) (by omega)]) (by rw [h 4 (by omega) (by omega)])

/-- **C48** Outside the picture the output is black. -/
theorem C48_black (m : Nat → Mem) (t : Nat)
    (h : ∀ f x y, x < 640 → y < 480 → t ≠ pixelClock f x y) : termRgb (run m t) = (0, 0, 0) := by
  cases t with
  | zero => rfl
  | succ t =>
    rw [run_succ]
    have hs : (run m t).shown = false := by
      cases hs : (run m t).shown
      · rfl
      · exfalso
        simp only [Vga.shown, Bool.and_eq_true, decide_eq_true_eq, line_eq, pixel_eq] at hs
        obtain ⟨⟨⟨a, b⟩, c⟩, d⟩ := hs
        unfold lineAt at a b
        by_cases h0 : t ≠ 0 ∧ t % 417321 = 0
        · rw [if_pos h0] at b; omega
        · rw [if_neg h0] at a b
          refine h (t / 417321) (t % 801 - 144) (t / 801 % 521 - 31) (by omega) (by omega) ?_
          unfold pixelClock
          omega
    show termSplit (run m t).colour = _
    unfold Vga.colour
    rw [hs, if_neg (by simp)]
    rfl

/-- A screen with an `A`-like glyph in light grey on blue at column 2, row 1. -/
def sampleScreen : Mem := fun a =>
  if a = 2 * 82 then 0x41 else if a = 2 * 82 + 1 then 0x17
  else if a = 0x12c0 + 16 * 0x41 + 3 then 0b01100000 else 0

example : pixelColour sampleScreen 17 19 = (0xaa, 0xaa, 0xaa) ∧
    pixelColour sampleScreen 16 19 = (0, 0, 0xaa) ∧ pixelColour sampleScreen 15 19 = (0, 0, 0) := by
  decide +kernel

example : termRgb (run (fun _ => sampleScreen) (pixelClock 7 17 19)) = (0xaa, 0xaa, 0xaa) := by
  rw [C48_picture _ 7 sampleScreen (fun _ _ _ => rfl) 17 19 (by decide) (by decide)]
  decide +kernel

/-! ## Bus -/

/-- One system clock of the bus side. -/
def busStep (s : Bus × Mem) (x : BusIn) : Bus × Mem := (s.1.step x, s.1.write x s.2)

/-- The bus side at system clock `n`, when the master drives the signals `b`. -/
def busRun (m0 : Mem) (b : Nat → BusIn) (n : Nat) : Bus × Mem :=
  trace busStep (Bus.reset, m0) b n

/-- A Wishbone master within the address range of the terminal: it keeps the signals of an access
until it is acknowledged. -/
def Master (m0 : Mem) (b : Nat → BusIn) : Prop :=
  (∀ n, (b n).cyc = true → (b n).stb = true → (busRun m0 b n).1.ack = false → b (n + 1) = b n) ∧
  ∀ n, (b n).cyc = true → (b n).stb = true → (b n).adr < 8896

/-- The write that is acknowledged at clock `n`, if any. -/
def writeAt (m0 : Mem) (b : Nat → BusIn) (n : Nat) : Option (Nat × Byte) :=
  if (b n).cyc = true ∧ (b n).stb = true ∧ (busRun m0 b n).1.ack = true ∧ (b n).we = true then
    some ((b n).adr, (b n).dat_w)
  else none

theorem busRun_succ (m0 : Mem) (b : Nat → BusIn) (n : Nat) :
    busRun m0 b (n + 1) = busStep (busRun m0 b n) (b n) := rfl

theorem ack_succ (m0 : Mem) (b : Nat → BusIn) (n : Nat) :
    (busRun m0 b (n + 1)).1.ack =
      ((b n).cyc && (b n).stb && !(busRun m0 b n).1.ack) := rfl

/-- **C49** Every access is acknowledged at the clock after it started, for exactly one clock, and
nothing else is acknowledged; this holds for any master. -/
theorem C49_acknowledge (m0 : Mem) (b : Nat → BusIn) (n : Nat) :
    ((busRun m0 b (n + 1)).1.ack = true ↔
      (b n).cyc = true ∧ (b n).stb = true ∧ (busRun m0 b n).1.ack = false) ∧
    ((busRun m0 b n).1.ack = true → (busRun m0 b (n + 1)).1.ack = false) := by
  rw [ack_succ]
  cases (b n).cyc <;> cases (b n).stb <;> cases (busRun m0 b n).1.ack <;> simp

/-- What the registers hold when an access is acknowledged. -/
theorem at_ack (m0 : Mem) (b : Nat → BusIn) (hb : Master m0 b) (n : Nat)
    (ha : (busRun m0 b n).1.ack = true) :
    (b n).cyc = true ∧ (b n).stb = true ∧ (busRun m0 b n).1.we = (b n).we ∧
    ((b n).we = true → (busRun m0 b n).1.dat_w = (b n).dat_w) ∧
    (busRun m0 b n).1.memadr = (b n).adr := by
  cases n with
  | zero => cases ha
  | succ n =>
    obtain ⟨h1, h2, h3⟩ := (C49_acknowledge m0 b n).1.1 ha
    have hh := hb.1 n h1 h2 h3
    have hr := hb.2 n h1 h2
    rw [hh, busRun_succ]
    refine ⟨h1, h2, ?_, fun hw => ?_, ?_⟩
    · show ((b n).cyc && (b n).stb && (b n).we && !(busRun m0 b n).1.ack) = _
      rw [h1, h2, h3]; simp
    · show (if (b n).cyc && (b n).stb && (b n).we && !(busRun m0 b n).1.ack then (b n).dat_w
        else _) = _
      rw [h1, h2, h3, hw]; rfl
    · show (b n).adr % 2 ^ 14 = _
      omega

theorem we_ack (m0 : Mem) (b : Nat → BusIn) (n : Nat) (h : (busRun m0 b n).1.we = true) :
    (busRun m0 b n).1.ack = true := by
  cases n with
  | zero => cases h
  | succ n =>
    rw [ack_succ]
    have h' : ((b n).cyc && (b n).stb && (b n).we && !(busRun m0 b n).1.ack) = true := h
    simp only [Bool.and_eq_true] at h' ⊢
    exact ⟨h'.1.1, h'.2⟩

/-- **C49** For every master that keeps its signals until the acknowledge, with any idle clocks
between the accesses, the terminal's memory is an array of bytes: at every clock it holds the
values of the acknowledged writes, and every acknowledged read returns what the array holds at its
address. -/
theorem C49_array (m0 : Mem) (b : Nat → BusIn) (hb : Master m0 b) (n : Nat) :
    (busRun m0 b n).2 = Spec.Terminal.array m0 (writeAt m0 b) n ∧
    ((busRun m0 b n).1.ack = true → (b n).we = false →
      (busRun m0 b n).1.datR (busRun m0 b n).2 =
        Spec.Terminal.array m0 (writeAt m0 b) n (b n).adr) := by
  have key : (busRun m0 b n).2 = Spec.Terminal.array m0 (writeAt m0 b) n := by
    induction n with
    | zero => rfl
    | succ n ih =>
      rw [busRun_succ]
      show (busRun m0 b n).1.write (b n) (busRun m0 b n).2 = _
      unfold Bus.write
      by_cases hw : (busRun m0 b n).1.we = true
      · have ha := we_ack m0 b n hw
        obtain ⟨h1, h2, h3, h4, -⟩ := at_ack m0 b hb n ha
        have hr := hb.2 n h1 h2
        rw [hw] at h3
        have e : writeAt m0 b n = some ((b n).adr, (b n).dat_w) := by
          unfold writeAt
          rw [if_pos ⟨h1, h2, ha, h3.symm⟩]
        have hp : portAdr (b n) = (b n).adr := by unfold portAdr; omega
        rw [hp, if_pos ⟨hw, hr⟩]
        funext a
        simp only [Spec.Terminal.array, e, h4 h3.symm, ih]
      · rw [if_neg (fun h => hw h.1)]
        have e : writeAt m0 b n = none := by
          unfold writeAt
          rw [if_neg]
          rintro ⟨h1, h2, ha, h4⟩
          obtain ⟨-, -, h3, -⟩ := at_ack m0 b hb n ha
          exact hw (h3.trans h4)
        funext a
        simp only [Spec.Terminal.array, e, ih]
  refine ⟨key, fun ha _ => ?_⟩
  obtain ⟨-, -, -, -, h5⟩ := at_ack m0 b hb n ha
  show (busRun m0 b n).2 (busRun m0 b n).1.memadr = _
  rw [key, h5]

/-- A master that writes 0x42 to address 5, waits a clock, and reads it back. -/
def sampleMaster (n : Nat) : BusIn :=
  if n < 2 then ⟨true, true, true, 5, 0x42⟩
  else if n < 3 then ⟨false, false, false, 0, 0⟩
  else if n < 5 then ⟨true, true, false, 5, 0⟩
  else ⟨false, false, false, 0, 0⟩

theorem sampleMaster_ok : Master (fun _ => 0) sampleMaster := by
  constructor
  · intro n h1 h2 h3
    rcases Nat.lt_or_ge n 5 with h | h
    · have key : ∀ n, n < 5 → (sampleMaster n).cyc = true → (sampleMaster n).stb = true →
          (busRun (fun _ => 0) sampleMaster n).1.ack = false →
          sampleMaster (n + 1) = sampleMaster n := by decide +kernel
      exact key n h h1 h2 h3
    · have : (sampleMaster n).cyc = false := by
        unfold sampleMaster
        rw [if_neg (by omega), if_neg (by omega), if_neg (by omega)]
      rw [this] at h1; cases h1
  · intro n _ _
    unfold sampleMaster
    split
    · decide
    · split
      · decide
      · split <;> decide

example : (busRun (fun _ => 0) sampleMaster 4).1.ack = true ∧
    (busRun (fun _ => 0) sampleMaster 4).1.datR (busRun (fun _ => 0) sampleMaster 4).2 = 0x42 ∧
    (busRun (fun _ => 0) sampleMaster 1).2 5 = 0 := by decide +kernel

/-! ## Both sides -/

open Gated (ticks ticks_succ)

/-- **C78** What software wrote is what is shown.  The system clock and the `vga` clock are
arbitrary; `b n` are the bus signals at the system clock `n`.  If from the first clock of frame `f`
up to instant `T` no write changes the array, whose contents are `mm`, and at instant `T` pixel
`(px, py)` of the frame is at the outputs, then it has the colour documented for `mm`. -/
theorem C78_shown (m0 : Mem) (b : Nat → BusIn) (hb : Master m0 b) (x : Nat → Terminal.In)
    (hx : ∀ t, (x t).sysEdge = true → (x t).bus = b (ticks (fun t => (x t).sysEdge) t))
    (f px py : Nat) (hpx : px < 640) (hpy : py < 480) (mm : Mem) (T : Nat)
    (hT : ticks (fun t => (x t).vgaEdge) T = pixelClock f px py)
    (hq : ∀ t, t < T → f * 521 * 801 ≤ ticks (fun t => (x t).vgaEdge) t →
      ∀ a, a < 8896 →
        Spec.Terminal.array m0 (writeAt m0 b) (ticks (fun t => (x t).sysEdge) t) a = mm a) :
    termRgb (trace Terminal.step (Terminal.reset m0) x T).vga = pixelColour mm px py := by
  have hbus : ∀ t, ((trace Terminal.step (Terminal.reset m0) x t).bus,
      (trace Terminal.step (Terminal.reset m0) x t).mem) =
      busRun m0 b (ticks (fun t => (x t).sysEdge) t) := by
    intro t
    refine Gated.trace_ticks busStep (Bus.reset, m0) (fun t => (x t).sysEdge)
      (fun t => ((trace Terminal.step (Terminal.reset m0) x t).bus,
        (trace Terminal.step (Terminal.reset m0) x t).mem)) b rfl ?_ t
    intro t
    rw [trace_succ]
    by_cases h : (x t).sysEdge = true
    · rw [if_pos h, ← hx t h]
      simp only [Terminal.step, h, if_true, busStep]
    · rw [if_neg h]
      simp only [Terminal.step, Bool.eq_false_iff.2 h, Bool.false_eq_true, if_false]
  obtain ⟨M, hM, -⟩ := Gated.exists_seq (fun t => (x t).vgaEdge)
    (fun t => (trace Terminal.step (Terminal.reset m0) x t).mem) (fun _ => 0)
  have hvga : ∀ t, (trace Terminal.step (Terminal.reset m0) x t).vga =
      run M (ticks (fun t => (x t).vgaEdge) t) := by
    intro t
    refine Gated.trace_ticks Vga.step Vga.reset (fun t => (x t).vgaEdge)
      (fun t => (trace Terminal.step (Terminal.reset m0) x t).vga) M rfl ?_ t
    intro t
    rw [trace_succ]
    by_cases h : (x t).vgaEdge = true
    · rw [if_pos h, hM t h]
      simp only [Terminal.step, h, if_true]
    · rw [if_neg h]
      simp only [Terminal.step, Bool.eq_false_iff.2 h, Bool.false_eq_true, if_false]
  have hmem : ∀ n, f * 521 * 801 ≤ n → n < pixelClock f px py → ∀ a, a < 8896 →
      M n a = mm a := by
    intro n h1 h2 a ha
    rw [← hT] at h2
    obtain ⟨u, hu, hp, hn⟩ := Gated.tick_at (fun t => (x t).vgaEdge) T n h2
    have e := hM u hp
    rw [hn] at e
    rw [e, ← hq u hu (by rw [hn]; exact h1) a ha, ← (C49_array m0 b hb _).1, ← hbus u]
  rw [hvga, hT]
  have hc : charAddr (px / 8) (py / 16) < 4799 := by unfold charAddr; omega
  have hg : ∀ v : Byte, glyphAddr v.toNat (py % 16) < 8896 := by
    intro v
    have := v.isLt
    unfold glyphAddr; omega
  refine C48_pixel M f px py hpx hpy mm ?_ ?_ ?_
  · exact hmem _ (by unfold pixelClock; omega) (by unfold pixelClock; omega) _ (by omega)
  · exact hmem _ (by unfold pixelClock; omega) (by unfold pixelClock; omega) _ (by omega)
  · exact hmem _ (by unfold pixelClock; omega) (by unfold pixelClock; omega) _ (hg _)

theorem ticks_all (n : Nat) : ticks (fun _ => true) n = n := by
  induction n with
  | zero => rfl
  | succ n ih => rw [ticks_succ, ih]; rfl

/-- The hypotheses of C78 are met: both clocks tick together, `sampleMaster` has written 0x42 (with
the colours) at address 5, and every pixel of frame 1 shows it. -/
example (px py : Nat) (hpx : px < 640) (hpy : py < 480) :
    termRgb (trace Terminal.step (Terminal.reset fun _ => 0)
      (fun t => ⟨true, true, sampleMaster t⟩) (pixelClock 1 px py)).vga =
      pixelColour (fun a => if a = 5 then 0x42 else 0) px py := by
  refine C78_shown (fun _ => 0) sampleMaster sampleMaster_ok _ ?_ 1 px py hpx hpy _ _
    (ticks_all _) ?_
  · intro t _
    exact congrArg sampleMaster (ticks_all t).symm
  · intro t _ ht a _
    rw [show ticks (fun t => true) t = t from ticks_all t] at ht ⊢
    have h : ∀ k a, Spec.Terminal.array (fun _ => 0) (writeAt (fun _ => 0) sampleMaster) (k + 5) a
        = if a = 5 then 0x42 else 0 := by
      intro k
      induction k with
      | zero =>
        intro a
        have e0 : writeAt (fun _ => 0) sampleMaster 0 = none := by decide +kernel
        have e1 : writeAt (fun _ => 0) sampleMaster 1 = some (5, 0x42) := by decide +kernel
        have e2 : writeAt (fun _ => 0) sampleMaster 2 = none := by decide +kernel
        have e3 : writeAt (fun _ => 0) sampleMaster 3 = none := by decide +kernel
        have e4 : writeAt (fun _ => 0) sampleMaster 4 = none := by decide +kernel
        simp only [Spec.Terminal.array, e0, e1, e2, e3, e4]
      | succ k ih =>
        intro a
        have e : writeAt (fun _ => 0) sampleMaster (k + 5) = none := by
          unfold writeAt
          rw [if_neg]
          rintro ⟨h, -⟩
          unfold sampleMaster at h
          rw [if_neg (by omega), if_neg (by omega), if_neg (by omega)] at h
          cases h
        rw [show k + 1 + 5 = (k + 5) + 1 by omega]
        simp only [Spec.Terminal.array, e]
        exact ih a
    have := h (t - 5) a
    rwa [Nat.sub_add_cancel (by omega)] at this

/-- **C79** The constructor accepts exactly files of the documented sizes (or an empty name, which
stands for zeros); then the memory starts with the screen from address 0 and the font from address
0x12c0. -/
theorem C79_initial (screen font : Option (List Byte)) :
    ((ramInit screen font).isSome = true ↔
      (∀ s, screen = some s → s.length = 0x12c0) ∧ (∀ s, font = some s → s.length = 0x1000)) ∧
    ∀ init, ramInit screen font = some init → init.length = depth ∧
      (∀ s, screen = some s → ∀ a, a < 0x12c0 → memOf init a = s.getD a 0) ∧
      (screen = none → ∀ a, a < 0x12c0 → memOf init a = 0) ∧
      (∀ s, font = some s → ∀ a, a < 0x1000 → memOf init (0x12c0 + a) = s.getD a 0) ∧
      (font = none → ∀ a, a < 0x1000 → memOf init (0x12c0 + a) = 0) := by
  have rep : ∀ n a, (List.replicate n (0 : Byte)).getD a 0 = 0 := by
    intro n a
    rw [List.getD_eq_getElem?_getD, List.getElem?_replicate]
    split <;> rfl
  have r : ∀ (file : Option (List Byte)) (n : Nat),
      ((∀ s, file = some s → s.length = n) ∧ ∃ d, readInit file n = some d ∧ d.length = n ∧
        (∀ s, file = some s → d = s) ∧ (file = none → d = List.replicate n 0)) ∨
      (readInit file n = none ∧ ¬ ∀ s, file = some s → s.length = n) := by
    intro file n
    cases file with
    | none =>
      exact .inl ⟨fun s h => (by cases h), _, rfl, List.length_replicate, fun s h => (by cases h),
        fun _ => rfl⟩
    | some d =>
      by_cases h : d.length = n
      · refine .inl ⟨fun s e => ?_, d, ?_, h, fun s e => ?_, fun e => (by cases e)⟩
        · cases e; exact h
        · simp only [readInit]
          rw [if_neg (fun c => c h)]
        · cases e; rfl
      · refine .inr ⟨?_, fun c => h (c d rfl)⟩
        simp only [readInit]
        rw [if_pos h]
  rcases r screen 4800 with ⟨a1, d, a2, a3, a4, a5⟩ | ⟨a2, a1⟩
  · rcases r font 4096 with ⟨b1, e, b2, b3, b4, b5⟩ | ⟨b2, b1⟩
    · have hi : ramInit screen font = some (d ++ e) := by simp only [ramInit, a2, b2]
      rw [hi]
      refine ⟨⟨fun _ => ⟨a1, b1⟩, fun _ => rfl⟩, fun init h => ?_⟩
      cases h
      have lo : ∀ a, a < 0x12c0 → memOf (d ++ e) a = d.getD a 0 := by
        intro a ha
        simp only [memOf, List.getD_eq_getElem?_getD]
        rw [List.getElem?_append_left (by omega)]
      have hi' : ∀ a, a < 0x1000 → memOf (d ++ e) (0x12c0 + a) = e.getD a 0 := by
        intro a ha
        simp only [memOf, List.getD_eq_getElem?_getD]
        rw [List.getElem?_append_right (by omega), a3,
          show 0x12c0 + a - 4800 = a by omega]
      refine ⟨by rw [List.length_append, a3, b3]; rfl, fun s hs a ha => ?_, fun hs a ha => ?_,
        fun s hs a ha => ?_, fun hs a ha => ?_⟩
      · rw [lo a ha, a4 s hs]
      · rw [lo a ha, a5 hs]; exact rep _ _
      · rw [hi' a ha, b4 s hs]
      · rw [hi' a ha, b5 hs]; exact rep _ _
    · have hi : ramInit screen font = none := by simp only [ramInit, a2, b2]
      rw [hi]
      exact ⟨⟨fun h => (by cases h), fun h => absurd h.2 b1⟩, fun init h => (by cases h)⟩
  · have hi : ramInit screen font = none := by simp only [ramInit, a2]
    rw [hi]
    exact ⟨⟨fun h => (by cases h), fun h => absurd h.1 a1⟩, fun init h => (by cases h)⟩

example : ramInit (some (List.replicate 4800 0x41)) none ≠ none := by
  intro h
  have := (C79_initial (some (List.replicate 4800 0x41)) none).1.2
    ⟨fun s e => (by cases e; exact List.length_replicate), fun s e => (by cases e)⟩
  rw [h] at this
  cases this

end Verif.Props
