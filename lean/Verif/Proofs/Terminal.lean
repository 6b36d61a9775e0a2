import Verif.Model.Terminal
import Verif.Spec.Terminal

/-!
# Text terminal: lemmas
-/

namespace Verif.Terminal

variable (m : Nat → Mem)

/-- The display side when the memory holds `m t` at clock `t`. -/
def run (t : Nat) : Vga := trace Vga.step Vga.reset m t

theorem run_succ (t : Nat) : run m (t + 1) = (run m t).step (m t) := rfl

/-- Clocks per frame. -/
abbrev frameLen : Nat := 417321

theorem pixel_eq (t : Nat) : (run m t).pixel = t % 801 := by
  induction t with
  | zero => rfl
  | succ t ih =>
    rw [run_succ]
    show (if decide ((run m t).pixel = 800) then 0 else ((run m t).pixel + 1) % 2 ^ 10) = _
    rw [ih]
    by_cases h : t % 801 = 800
    · simp only [h, decide_true, if_true]; omega
    · simp only [h, decide_false, Bool.false_eq_true, if_false]; omega

/-- Line counter at clock `t`. -/
def lineAt (t : Nat) : Nat := if t ≠ 0 ∧ t % 417321 = 0 then 521 else t / 801 % 521

theorem line_eq (t : Nat) : (run m t).line = lineAt t := by
  induction t with
  | zero => rfl
  | succ t ih =>
    rw [run_succ]
    show (if (run m t).line = 521 then 0
      else if decide ((run m t).pixel = 800) then ((run m t).line + 1) % 2 ^ 10
      else (run m t).line) = _
    rw [ih, pixel_eq]
    unfold lineAt
    by_cases h : t % 801 = 800
    · simp only [h, decide_true, if_true]
      by_cases h0 : t ≠ 0 ∧ t % 417321 = 0
      · omega
      · rw [if_neg h0, if_neg (show ¬ t / 801 % 521 = 521 by omega)]
        by_cases h1 : t + 1 ≠ 0 ∧ (t + 1) % 417321 = 0
        · rw [if_pos h1]; omega
        · rw [if_neg h1]; omega
    · simp only [h, decide_false, Bool.false_eq_true, if_false]
      have hn : ¬ (t + 1 ≠ 0 ∧ (t + 1) % 417321 = 0) := by omega
      rw [if_neg hn]
      by_cases h0 : t ≠ 0 ∧ t % 417321 = 0
      · simp only [if_pos h0, if_true]; omega
      · rw [if_neg h0, if_neg (show ¬ t / 801 % 521 = 521 by omega)]
        omega

theorem hsync_eq (t : Nat) : (run m (t + 1)).hsync = decide (96 ≤ t % 801) := by
  induction t with
  | zero => rfl
  | succ t ih =>
    rw [run_succ]
    show (if (run m (t + 1)).pixel < 96 then false
      else if (run m (t + 1)).pixel < 144 then true else (run m (t + 1)).hsync) = _
    rw [ih, pixel_eq]
    by_cases h : (t + 1) % 801 < 96
    · rw [if_pos h]; exact (decide_eq_false (by omega)).symm
    · rw [if_neg h]
      by_cases h' : (t + 1) % 801 < 144
      · rw [if_pos h']; exact (decide_eq_true (by omega)).symm
      · rw [if_neg h']
        exact decide_eq_decide.2 (by omega)

theorem vsync_eq (t : Nat) : (run m (t + 1)).vsync = decide (2 ≤ lineAt t) := by
  induction t with
  | zero => rfl
  | succ t ih =>
    rw [run_succ]
    show (if (run m (t + 1)).line < 2 then false
      else if (run m (t + 1)).line < 31 then true else (run m (t + 1)).vsync) = _
    rw [ih, line_eq]
    by_cases h : lineAt (t + 1) < 2
    · rw [if_pos h]; exact (decide_eq_false (by omega)).symm
    · rw [if_neg h]
      by_cases h' : lineAt (t + 1) < 31
      · rw [if_pos h']; exact (decide_eq_true (by omega)).symm
      · rw [if_neg h']
        refine decide_eq_decide.2 ?_
        unfold lineAt at *
        split at h' <;> split <;> omega

/-! ## Position within a frame -/

/-- First clock of display line `y` of frame `f`. -/
def lineStart (f y : Nat) : Nat := f * 417321 + (31 + y) * 801

theorem line_in (f y p : Nat) (hy : y < 480) (hp : p ≤ 800) :
    (run m (lineStart f y + p)).line = 31 + y ∧ (run m (lineStart f y + p)).pixel = p := by
  rw [line_eq, pixel_eq]
  unfold lineAt lineStart
  constructor
  · rw [if_neg (by omega)]; omega
  · omega

theorem text_row_start (f : Nat) :
    (run m (lineStart f 0)).fline = 0 ∧ (run m (lineStart f 0)).text_start = 0 := by
  have e : lineStart f 0 = (f * 417321 + 30 * 801 + 800) + 1 := by unfold lineStart; omega
  rw [e, run_succ]
  have hl : (run m (f * 417321 + 30 * 801 + 800)).line = 30 := by
    rw [line_eq]
    unfold lineAt
    rw [if_neg (by omega)]; omega
  generalize run m (f * 417321 + 30 * 801 + 800) = s at *
  constructor
  · show (if s.line = 30 then 0 else _) = _
    rw [if_pos hl]
  · show (if s.line = 30 then 0 else _) = _
    rw [if_pos hl]

theorem text_row_hold (f y p : Nat) (hy : y < 480) (hp : p ≤ 800) :
    (run m (lineStart f y + p)).fline = (run m (lineStart f y)).fline ∧
    (run m (lineStart f y + p)).text_start = (run m (lineStart f y)).text_start := by
  induction p with
  | zero => rw [Nat.add_zero]; exact ⟨rfl, rfl⟩
  | succ p ih =>
    obtain ⟨h1, h2⟩ := ih (by omega)
    obtain ⟨hl, hpx⟩ := line_in m f y p hy (by omega)
    rw [← h1, ← h2, ← Nat.add_assoc, run_succ]
    generalize run m (lineStart f y + p) = s at *
    have hne : decide (s.pixel = 800) = false := decide_eq_false (by omega)
    constructor
    · show (if s.line = 30 then 0 else if decide (s.pixel = 800) then _ else s.fline) = _
      rw [if_neg (by omega), hne, if_neg (by simp)]
    · show (if s.line = 30 then 0 else if decide (s.pixel = 800) ∧ s.fline = 15 then _
        else s.text_start) = _
      rw [if_neg (by omega), hne, if_neg (by simp)]

theorem text_row (f y : Nat) (hy : y < 480) :
    (run m (lineStart f y)).fline = y % 16 ∧
    (run m (lineStart f y)).text_start = 160 * (y / 16) := by
  induction y with
  | zero => exact text_row_start m f
  | succ y ih =>
    obtain ⟨i1, i2⟩ := ih (by omega)
    obtain ⟨h1, h2⟩ := text_row_hold m f y 800 (by omega) (by omega)
    obtain ⟨hl, hpx⟩ := line_in m f y 800 (by omega) (by omega)
    have e : lineStart f (y + 1) = lineStart f y + 800 + 1 := by unfold lineStart; omega
    rw [e, run_succ]
    rw [i1] at h1
    rw [i2] at h2
    generalize run m (lineStart f y + 800) = s at *
    have hq : decide (s.pixel = 800) = true := decide_eq_true hpx
    constructor
    · show (if s.line = 30 then 0 else if decide (s.pixel = 800) then
        (if s.fline = 15 then 0 else (s.fline + 1) % 2 ^ 4) else s.fline) = _
      rw [if_neg (by omega), hq, if_pos rfl, h1]
      split <;> omega
    · show (if s.line = 30 then 0 else if decide (s.pixel = 800) ∧ s.fline = 15 then
        (s.text_start + 2 * 80) % 2 ^ 16 else s.text_start) = _
      rw [if_neg (by omega), hq, h1, h2]
      simp only [true_and]
      split <;> omega

theorem fline_in (f y p : Nat) (hy : y < 480) (hp : p ≤ 800) :
    (run m (lineStart f y + p)).fline = y % 16 ∧
    (run m (lineStart f y + p)).text_start = 160 * (y / 16) := by
  obtain ⟨h1, h2⟩ := text_row_hold m f y p hy hp
  obtain ⟨h3, h4⟩ := text_row m f y hy
  exact ⟨h1.trans h3, h2.trans h4⟩

/-! ## The fetch pipeline -/

/-- Clock `n` of the fetch of line `y`; the first character is fetched from `n = 0` on. -/
def fetch (f y n : Nat) : Nat := lineStart f y + (136 + n)

theorem fetch_succ (f y n : Nat) : fetch f y (n + 1) = fetch f y n + 1 := by
  unfold fetch; omega

theorem fx_text (f y n : Nat) (hy : y < 480) (hn : n ≤ 664) :
    (run m (fetch f y n)).fx = n % 8 ∧
    (run m (fetch f y n)).text_addr = 160 * (y / 16) + 2 * (n / 8) +
      (if 2 ≤ n % 8 then 1 else 0) + (if 3 ≤ n % 8 then 1 else 0) := by
  induction n with
  | zero =>
    have e : fetch f y 0 = lineStart f y + 135 + 1 := by unfold fetch; omega
    obtain ⟨-, hp⟩ := line_in m f y 135 hy (by omega)
    obtain ⟨-, ht⟩ := fline_in m f y 135 hy (by omega)
    rw [e, run_succ]
    generalize run m (lineStart f y + 135) = s at *
    constructor
    · show (if s.pixel = 135 then 0 else _) = _
      rw [if_pos hp]
    · show (if s.pixel = 135 then s.text_start else _) = _
      rw [if_pos hp, ht]; rfl
  | succ n ih =>
    obtain ⟨h1, h2⟩ := ih (by omega)
    have e : fetch f y n = lineStart f y + (136 + n) := rfl
    obtain ⟨-, hp⟩ := line_in m f y (136 + n) hy (by omega)
    rw [fetch_succ, run_succ]
    rw [← e] at hp
    generalize run m (fetch f y n) = s at *
    constructor
    · show (if s.pixel = 135 then 0 else if s.fx = 7 then 0 else (s.fx + 1) % 2 ^ 3) = _
      rw [if_neg (by omega), h1]
      split <;> omega
    · show (if s.pixel = 135 then s.text_start else if s.fx = 1 ∨ s.fx = 2 then
        (s.text_addr + 1) % 2 ^ 16 else s.text_addr) = _
      rw [if_neg (by omega), h1, h2]
      have hb : n / 8 ≤ 83 := by omega
      have hy' : y / 16 < 30 := by omega
      have hc : n % 8 = 0 ∨ n % 8 = 1 ∨ n % 8 = 2 ∨ n % 8 = 3 ∨ n % 8 = 4 ∨ n % 8 = 5 ∨ n % 8 = 6 ∨
        n % 8 = 7 := by omega
      generalize y / 16 = q at *
      rcases hc with h | h | h | h | h | h | h | h
      · rw [h, show (n + 1) % 8 = 1 by omega, show (n + 1) / 8 = n / 8 by omega]; simp
      · rw [h, show (n + 1) % 8 = 2 by omega, show (n + 1) / 8 = n / 8 by omega]; simp; omega
      · rw [h, show (n + 1) % 8 = 3 by omega, show (n + 1) / 8 = n / 8 by omega]; simp; omega
      · rw [h, show (n + 1) % 8 = 4 by omega, show (n + 1) / 8 = n / 8 by omega]; simp
      · rw [h, show (n + 1) % 8 = 5 by omega, show (n + 1) / 8 = n / 8 by omega]; simp
      · rw [h, show (n + 1) % 8 = 6 by omega, show (n + 1) / 8 = n / 8 by omega]; simp
      · rw [h, show (n + 1) % 8 = 7 by omega, show (n + 1) / 8 = n / 8 by omega]; simp
      · rw [h, show (n + 1) % 8 = 0 by omega, show (n + 1) / 8 = n / 8 + 1 by omega]; simp; omega

/-! Single steps of the fetch. -/

theorem step_adr_text (s : Vga) (mm : Mem) (h : s.fx = 1 ∨ s.fx = 2) :
    (s.step mm).adr = s.text_addr % 2 ^ 14 := by
  show (if s.fx = 3 then _ else if s.fx = 1 ∨ s.fx = 2 then s.text_addr % 2 ^ 14 else _) = _
  rw [if_neg (by omega), if_pos h]

theorem step_adr_font (s : Vga) (mm : Mem) (h : s.fx = 3) :
    (s.step mm).adr = (4800 + 16 * (mm s.memadr).toNat + s.fline) % 2 ^ 14 := by
  show (if s.fx = 3 then (4800 + 16 * (mm s.memadr).toNat + s.fline) % 2 ^ 14 else _) = _
  rw [if_pos h]

theorem step_memadr (s : Vga) (mm : Mem) : (s.step mm).memadr = s.adr := rfl

/-- What is loaded for character column `c` of line `y`, when the memory holds the given bytes at
the three clocks at which they are read. -/
theorem load (f y c : Nat) (hy : y < 480) (hc : c < 80) (ch col row : Byte)
    (h3 : m (fetch f y (8 * c + 3)) (160 * (y / 16) + 2 * c) = ch)
    (h4 : m (fetch f y (8 * c + 4)) (160 * (y / 16) + 2 * c + 1) = col)
    (h5 : m (fetch f y (8 * c + 5)) (4800 + 16 * ch.toNat + y % 16) = row) :
    (run m (fetch f y (8 * c + 8))).fbyte = row ∧
    (run m (fetch f y (8 * c + 8))).fg = lookup (col.extractLsb' 0 4) ∧
    (run m (fetch f y (8 * c + 8))).bg = lookup (col.extractLsb' 4 4) := by
  have fx : ∀ j, j < 8 → (run m (fetch f y (8 * c + j))).fx = j := by
    intro j hj
    rw [(fx_text m f y (8 * c + j) hy (by omega)).1]; omega
  have st : ∀ j k, k = j + 1 → run m (fetch f y (8 * c + k)) =
      (run m (fetch f y (8 * c + j))).step (m (fetch f y (8 * c + j))) := by
    intro j k hk
    rw [hk, ← Nat.add_assoc, fetch_succ, run_succ]
  have tx1 := (fx_text m f y (8 * c + 1) hy (by omega)).2
  have tx2 := (fx_text m f y (8 * c + 2) hy (by omega)).2
  have fl := (fline_in m f y (136 + (8 * c + 3)) hy (by omega)).1
  rw [show lineStart f y + (136 + (8 * c + 3)) = fetch f y (8 * c + 3) from rfl] at fl
  have cb : ch.toNat < 256 := ch.isLt
  have f1 := fx 1 (by omega)
  have f2 := fx 2 (by omega)
  have f3 := fx 3 (by omega)
  have f4 := fx 4 (by omega)
  have f5 := fx 5 (by omega)
  have f6 := fx 6 (by omega)
  have f7 := fx 7 (by omega)
  have s1 := st 1 2 rfl
  have s2 := st 2 3 rfl
  have s3 := st 3 4 rfl
  have s4 := st 4 5 rfl
  have s5 := st 5 6 rfl
  have s6 := st 6 7 rfl
  have s7 := st 7 8 rfl
  generalize run m (fetch f y (8 * c + 1)) = S1 at *
  generalize run m (fetch f y (8 * c + 2)) = S2 at *
  generalize run m (fetch f y (8 * c + 3)) = S3 at *
  generalize run m (fetch f y (8 * c + 4)) = S4 at *
  generalize run m (fetch f y (8 * c + 5)) = S5 at *
  generalize run m (fetch f y (8 * c + 6)) = S6 at *
  generalize run m (fetch f y (8 * c + 7)) = S7 at *
  generalize run m (fetch f y (8 * c + 8)) = S8 at *
  clear st fx
  -- read address of the character
  have a2 : S2.adr = 160 * (y / 16) + 2 * c := by
    rw [s1, step_adr_text _ _ (.inl f1), tx1, if_neg (by omega), if_neg (by omega)]
    omega
  have a3 : S3.adr = 160 * (y / 16) + 2 * c + 1 ∧ S3.memadr = 160 * (y / 16) + 2 * c := by
    rw [s2, step_memadr, step_adr_text _ _ (.inr f2)]
    refine ⟨?_, a2⟩
    rw [tx2, if_pos (by omega), if_neg (by omega)]
    omega
  have a4 : S4.adr = 4800 + 16 * ch.toNat + y % 16 ∧ S4.memadr = 160 * (y / 16) + 2 * c + 1 := by
    rw [s3, step_memadr, step_adr_font _ _ f3]
    refine ⟨?_, a3.1⟩
    rw [a3.2, h3, fl]
    omega
  have a5 : S5.color = col ∧ S5.memadr = 4800 + 16 * ch.toNat + y % 16 := by
    rw [s4]
    refine ⟨?_, a4.1⟩
    show (if S4.fx = 4 then m (fetch f y (8 * c + 4)) S4.memadr else _) = _
    rw [if_pos f4, a4.2, h4]
  have a6 : S6.next_byte = row ∧ S6.color_index = col.extractLsb' 0 4 ∧ S6.color = col := by
    rw [s5]
    refine ⟨?_, ?_, ?_⟩
    · show (if S5.fx = 5 then m (fetch f y (8 * c + 5)) S5.memadr else _) = _
      rw [if_pos f5, a5.2, h5]
    · show (if S5.fx = 6 then _ else if S5.fx = 5 then S5.color.extractLsb' 0 4 else _) = _
      rw [if_neg (by omega), if_pos f5, a5.1]
    · show (if S5.fx = 4 then _ else S5.color) = _
      rw [if_neg (by omega), a5.1]
  have a7 : S7.next_byte = row ∧ S7.color_index = col.extractLsb' 4 4 ∧
      S7.next_fg = lookup (col.extractLsb' 0 4) := by
    rw [s6]
    refine ⟨?_, ?_, ?_⟩
    · show (if S6.fx = 5 then _ else S6.next_byte) = _
      rw [if_neg (by omega), a6.1]
    · show (if S6.fx = 6 then S6.color.extractLsb' 4 4 else _) = _
      rw [if_pos f6, a6.2.2]
    · show (if S6.fx = 6 then lookup S6.color_index else _) = _
      rw [if_pos f6, a6.2.1]
  rw [s7]
  refine ⟨?_, ?_, ?_⟩
  · show (if S7.fx = 7 then S7.next_byte else _) = _
    rw [if_pos f7, a7.1]
  · show (if S7.fx = 7 then S7.next_fg else _) = _
    rw [if_pos f7, a7.2.2]
  · show (if S7.fx = 7 then lookup S7.color_index else _) = _
    rw [if_pos f7, a7.2.1]

/-- Within a character the bits of the glyph line are shifted out and the colours kept. -/
theorem shift (f y c k : Nat) (hy : y < 480) (hc : c < 80) (hk : k < 8) :
    (run m (fetch f y (8 * c + 8 + k))).fbyte = (run m (fetch f y (8 * c + 8))).fbyte <<< k ∧
    (run m (fetch f y (8 * c + 8 + k))).fg = (run m (fetch f y (8 * c + 8))).fg ∧
    (run m (fetch f y (8 * c + 8 + k))).bg = (run m (fetch f y (8 * c + 8))).bg := by
  induction k with
  | zero => rw [Nat.add_zero]; exact ⟨by rw [BitVec.shiftLeft_zero], rfl, rfl⟩
  | succ k ih =>
    obtain ⟨i1, i2, i3⟩ := ih (by omega)
    have hf := (fx_text m f y (8 * c + 8 + k) hy (by omega)).1
    obtain ⟨hl, hp⟩ := line_in m f y (136 + (8 * c + 8 + k)) hy (by omega)
    rw [show lineStart f y + (136 + (8 * c + 8 + k)) = fetch f y (8 * c + 8 + k) from rfl] at hl hp
    rw [show 8 * c + 8 + (k + 1) = 8 * c + 8 + k + 1 from (Nat.add_assoc _ _ _).symm, fetch_succ,
      run_succ]
    generalize run m (fetch f y (8 * c + 8 + k)) = S at *
    have hs : S.shown = true := by
      simp only [Vga.shown, hl, hp, Bool.and_eq_true, decide_eq_true_eq]
      omega
    refine ⟨?_, ?_, ?_⟩
    · show (if S.fx = 7 then _ else if S.shown then S.fbyte <<< 1 else _) = _
      rw [if_neg (by omega), hs, if_pos rfl, i1, BitVec.shiftLeft_add]
    · show (if S.fx = 7 then _ else S.fg) = _
      rw [if_neg (by omega), i2]
    · show (if S.fx = 7 then _ else S.bg) = _
      rw [if_neg (by omega), i3]

end Verif.Terminal
