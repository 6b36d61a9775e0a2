import Verif.Model.Analysis
import Verif.Spec.Stream

/-!
# Sync polarity and resolution detection: properties
-/

namespace Verif.Props

open Verif.Spec.Stream

section SyncPolarity

open Analysis.SyncPolarity

/-- Active video ends at clock `t + 1`: data-enable was 1 at `t` and is 0 at `t + 1`. -/
def ActiveEnds (x : Nat → In) (t : Nat) : Prop := (x t).de_int = true ∧ (x (t + 1)).de_int = false

/-- **C10** The sync outputs are the sync inputs relative to their value at the end of the last
active line: if active video ended at clock `t` and did not end again up to clock `t + k`, then
the outputs one clock later are the control bits of clock `t + k` xor those of clock `t`. -/
theorem C10_value (s0 : State) (x : Nat → In) (t k : Nat)
    (hend : ActiveEnds x t) (hno : ∀ u, u < k → ¬ ActiveEnds x (t + 1 + u)) :
    let s := trace step s0 x (t + 1 + k + 1)
    hsync s = ((x (t + 1 + k)).data_in0.c.getLsbD 0 ^^ (x (t + 1)).data_in0.c.getLsbD 0) ∧
    vsync s = ((x (t + 1 + k)).data_in0.c.getLsbD 1 ^^ (x (t + 1)).data_in0.c.getLsbD 1) := by
  have hde : ∀ u, (trace step s0 x (u + 1)).de_r = (x u).de_int := fun _ => rfl
  have key : ∀ k, (∀ u, u < k → ¬ ActiveEnds x (t + 1 + u)) →
      (trace step s0 x (t + 1 + k + 1)).c_polarity = (x (t + 1)).data_in0.c ∧
      (trace step s0 x (t + 1 + k + 1)).c_out =
        (x (t + 1 + k)).data_in0.c ^^^ (x (t + 1)).data_in0.c := by
    intro k
    induction k with
    | zero =>
      intro _
      have e : deRising (trace step s0 x (t + 1)) (x (t + 1)) = true := by
        simp [deRising, hde, hend.1, hend.2]
      rw [trace_succ]
      simp only [step, Nat.add_zero, e, if_true]
      exact ⟨trivial, (BitVec.xor_self).symm⟩
    | succ k ih =>
      intro hno
      obtain ⟨h1, -⟩ := ih fun u hu => hno u (by omega)
      have e : deRising (trace step s0 x (t + 1 + (k + 1))) (x (t + 1 + (k + 1))) = false := by
        have := hno k (by omega)
        show ((trace step s0 x (t + 1 + k + 1)).de_r && _) = false
        rw [hde]
        rw [Bool.eq_false_iff]
        intro hh
        simp only [Bool.and_eq_true, Bool.not_eq_true'] at hh
        exact this hh
      constructor
      · show (if deRising (trace step s0 x (t + 1 + (k + 1))) (x (t + 1 + (k + 1))) then _
          else _) = _
        rw [e]; exact h1
      · show (if deRising (trace step s0 x (t + 1 + (k + 1))) (x (t + 1 + (k + 1))) then _
          else _ ^^^ (trace step s0 x (t + 1 + k + 1)).c_polarity) = _
        rw [e, h1]; rfl
  obtain ⟨-, h⟩ := key k hno
  simp only [hsync, vsync, h, BitVec.getLsbD_xor, and_self]

/-- **C10** Both sync outputs are 0 at the end of every active line, whatever the polarity. -/
theorem C10_inactive_at_line_end (s0 : State) (x : Nat → In) (t : Nat) (hend : ActiveEnds x t) :
    hsync (trace step s0 x (t + 2)) = false ∧ vsync (trace step s0 x (t + 2)) = false := by
  have := C10_value s0 x t 0 hend (fun u hu => absurd hu (Nat.not_lt_zero u))
  simpa using this

/-- **C10** Polarity independence: two sources that agree on data-enable and whose sync bits
differ by a constant (`m` inverts hsync, vsync, both or none) from the end of some active line on
give the same sync outputs from then on, whatever happened before. -/
theorem C10_polarity_independent (s0 s1 : State) (x y : Nat → In) (m : BitVec 2) (T : Nat)
    (hend : ActiveEnds x T) (hde : ∀ t, T ≤ t → (y t).de_int = (x t).de_int)
    (hc : ∀ t, T < t → (y t).data_in0.c = (x t).data_in0.c ^^^ m) (k : Nat) :
    hsync (trace step s1 y (T + 2 + k)) = hsync (trace step s0 x (T + 2 + k)) ∧
    vsync (trace step s1 y (T + 2 + k)) = vsync (trace step s0 x (T + 2 + k)) := by
  have key : ∀ k,
      (trace step s1 y (T + 2 + k)).de_r = (trace step s0 x (T + 2 + k)).de_r ∧
      (trace step s1 y (T + 2 + k)).c_polarity =
        (trace step s0 x (T + 2 + k)).c_polarity ^^^ m ∧
      (trace step s1 y (T + 2 + k)).c_out = (trace step s0 x (T + 2 + k)).c_out := by
    intro k
    induction k with
    | zero =>
      have e : deRising (trace step s0 x (T + 1)) (x (T + 1)) = true := by
        show ((x T).de_int && _) = true
        rw [hend.1, hend.2]; rfl
      have e' : deRising (trace step s1 y (T + 1)) (y (T + 1)) = true := by
        show ((y T).de_int && !(y (T + 1)).de_int) = true
        rw [hde T (Nat.le_refl _), hde (T + 1) (by omega), hend.1, hend.2]; rfl
      refine ⟨hde (T + 1) (by omega), ?_, ?_⟩
      · show (if deRising (trace step s1 y (T + 1)) (y (T + 1)) then (y (T + 1)).data_in0.c else _) =
          (if deRising (trace step s0 x (T + 1)) (x (T + 1)) then (x (T + 1)).data_in0.c else _) ^^^ m
        rw [e, e']; exact hc (T + 1) (by omega)
      · show (if deRising (trace step s1 y (T + 1)) (y (T + 1)) then 0 else _) =
          (if deRising (trace step s0 x (T + 1)) (x (T + 1)) then 0 else _)
        rw [e, e']; rfl
    | succ k ih =>
      obtain ⟨h1, h2, -⟩ := ih
      rw [show T + 2 + (k + 1) = T + 2 + k + 1 from rfl, trace_succ, trace_succ]
      have hd := hde (T + 2 + k) (by omega)
      have hcc := hc (T + 2 + k) (by omega)
      have e : deRising (trace step s1 y (T + 2 + k)) (y (T + 2 + k)) =
          deRising (trace step s0 x (T + 2 + k)) (x (T + 2 + k)) := by
        simp only [deRising, h1, hd]
      simp only [step, e, hd, hcc, h2]
      cases deRising (trace step s0 x (T + 2 + k)) (x (T + 2 + k))
      · refine ⟨trivial, rfl, ?_⟩
        simp only [Bool.false_eq_true, if_false]
        generalize (x (T + 2 + k)).data_in0.c = c
        generalize (trace step s0 x (T + 2 + k)).c_polarity = p
        rw [BitVec.xor_assoc, BitVec.xor_comm p m, ← BitVec.xor_assoc m m p, BitVec.xor_self,
          BitVec.zero_xor]
      · exact ⟨trivial, rfl, rfl⟩
  obtain ⟨-, -, h⟩ := key k
  simp only [hsync, vsync, h, and_self]

/-- **C10** The picture is passed on with the data-enable it came with, one clock later. -/
theorem C10_pixels (s0 : State) (x : Nat → In) (t : Nat) :
    let s := trace step s0 x (t + 1)
    s.valid_o = (x t).valid_i ∧ de s = (x t).de_int ∧ s.r = (x t).data_in2.d ∧
      s.g = (x t).data_in1.d ∧ s.b = (x t).data_in0.d := ⟨rfl, rfl, rfl, rfl, rfl⟩

/-- A line of two pixels, then blanking with an active-low hsync pulse (control bit 0 falls), and
the same with hsync inverted: both give the same pulse. -/
def polIn (inv : Bool) (t : Nat) : In :=
  let w : ChanSync.Word :=
    { raw := 0, d := 0, de := decide (t % 8 < 2)
      c := if (t % 8 != 4) != inv then 1 else 0 }
  dviIn true w w w

example : ActiveEnds (polIn false) 1 ∧ ¬ ActiveEnds (polIn false) 2 ∧
    (∀ inv, hsync (trace step reset (polIn inv) 5) = true ∧
      hsync (trace step reset (polIn inv) 6) = false) := by
  unfold ActiveEnds; decide

end SyncPolarity

section Resolution

open Analysis.Resolution

variable (nbits : Nat)

/-- **C11** If a line of `n` active clocks (`valid_i` set) lies between clock `t`, without
data-enable, and clock `t + n + 1`, then the horizontal resolution is `n mod 2^nbits` after that
clock and stays so while no other line ends and `valid_i` stays set. -/
theorem C11_hres (s0 : State) (x : Nat → In) (t n k : Nat) (hn : 0 < n)
    (h0 : (x t).de = false)
    (h1 : ∀ u, u < n → (x (t + 1 + u)).de = true ∧ (x (t + 1 + u)).valid_i = true)
    (h2 : (x (t + 1 + n)).de = false)
    (hk : ∀ u, u ≤ k → (x (t + 1 + n + u)).valid_i = true)
    (hno : ∀ u, u < k → ¬ ((x (t + 1 + n + u)).de = true ∧ (x (t + 1 + n + u + 1)).de = false)) :
    (trace (step nbits) s0 x (t + 1 + n + k + 1)).hcounter_st = n % 2 ^ nbits := by
  have hde : ∀ u, (trace (step nbits) s0 x (u + 1)).de_r = (x u).de := fun _ => rfl
  have hcount : ∀ m, m ≤ n → (trace (step nbits) s0 x (t + 1 + m)).hcounter = m % 2 ^ nbits := by
    intro m
    induction m with
    | zero =>
      intro _
      show (if (x t).valid_i && (x t).de then _ else 0) = _
      rw [h0, Bool.and_false, if_neg (by decide), Nat.zero_mod]
    | succ m ih =>
      intro hm
      show (if (x (t + 1 + m)).valid_i && (x (t + 1 + m)).de then
        ((trace (step nbits) s0 x (t + 1 + m)).hcounter + 1) % 2 ^ nbits else 0) = _
      rw [(h1 m (by omega)).1, (h1 m (by omega)).2]
      simp only [Bool.and_self, if_true]
      rw [ih (by omega), Nat.mod_add_mod]
  induction k with
  | zero =>
    show (if (x (t + 1 + n)).valid_i then _ else 0) = _
    rw [show (x (t + 1 + n)).valid_i = true from hk 0 (Nat.le_refl _), if_pos rfl]
    have e : pnDe (trace (step nbits) s0 x (t + 1 + n)) (x (t + 1 + n)) = true := by
      obtain ⟨m, rfl⟩ : ∃ m, n = m + 1 := ⟨n - 1, by omega⟩
      show (!(x (t + 1 + (m + 1))).de && (x (t + 1 + m)).de) = true
      rw [h2, (h1 m (by omega)).1]; rfl
    rw [if_pos e, hcount n (Nat.le_refl _)]
  | succ k ih =>
    have ih := ih (fun u hu => hk u (by omega)) (fun u hu => hno u (by omega))
    show (if (x (t + 1 + n + (k + 1))).valid_i then _ else 0) = _
    rw [hk (k + 1) (Nat.le_refl _), if_pos rfl]
    have e : pnDe (trace (step nbits) s0 x (t + 1 + n + (k + 1))) (x (t + 1 + n + (k + 1))) =
        false := by
      have := hno k (by omega)
      show (!(x (t + 1 + n + k + 1)).de && (x (t + 1 + n + k)).de) = false
      rw [Bool.eq_false_iff]
      intro hh
      simp only [Bool.and_eq_true, Bool.not_eq_true'] at hh
      exact this ⟨hh.2, hh.1⟩
    rw [if_neg (by rw [e]; decide)]
    exact ih

/-- **C11**/**C12** Without `valid_i` both resolutions read 0. -/
theorem C11_invalid (s0 : State) (x : Nat → In) (t : Nat) (h : (x t).valid_i = false) :
    (trace (step nbits) s0 x (t + 1)).hcounter_st = 0 ∧
    (trace (step nbits) s0 x (t + 1)).vcounter_st = 0 := by
  constructor
  · show (if (x t).valid_i then _ else 0) = _
    rw [h]; rfl
  · show (if (x t).valid_i then _ else 0) = _
    rw [h]; rfl

/-- vsync rises at clock `t + 1`. -/
def VsyncRises (x : Nat → In) (t : Nat) : Bool := !(x t).vsync && (x (t + 1)).vsync

/-- An active line ends at clock `t + 1`. -/
def LineEnds (x : Nat → In) (t : Nat) : Bool := (x t).de && !(x (t + 1)).de

/-- **C12** Between two consecutive rising edges of vsync (both with `valid_i` set), at clocks
`t + 1` and `t + n + 2`, count the active lines that end strictly between them; that number modulo
`2^nbits` is the vertical resolution after the second edge and stays so while vsync does not rise
again and `valid_i` stays set. -/
theorem C12_vres (s0 : State) (x : Nat → In) (t n k : Nat)
    (hr1 : VsyncRises x t = true) (hv1 : (x (t + 1)).valid_i = true)
    (hno : ∀ u, u < n → VsyncRises x (t + 1 + u) = false)
    (hr2 : VsyncRises x (t + 1 + n) = true)
    (hv2 : ∀ u, u ≤ k → (x (t + 1 + n + 1 + u)).valid_i = true)
    (hno2 : ∀ u, u < k → VsyncRises x (t + 1 + n + 1 + u) = false) :
    (trace (step nbits) s0 x (t + 1 + n + 1 + k + 1)).vcounter_st =
      countIn (LineEnds x) (t + 1) n % 2 ^ nbits := by
  have hp : ∀ u, pVsync (trace (step nbits) s0 x (u + 1)) (x (u + 1)) = VsyncRises x u :=
    fun u => Bool.and_comm _ _
  have hl : ∀ u, pnDe (trace (step nbits) s0 x (u + 1)) (x (u + 1)) = LineEnds x u :=
    fun u => Bool.and_comm _ _
  have hcount : ∀ m, m ≤ n → (trace (step nbits) s0 x (t + 1 + m + 1)).vcounter =
      countIn (LineEnds x) (t + 1) m % 2 ^ nbits := by
    intro m
    induction m with
    | zero =>
      intro _
      show (if (x (t + 1)).valid_i && pVsync (trace (step nbits) s0 x (t + 1)) (x (t + 1)) then 0
        else _) = _
      rw [hp, hr1, hv1]
      exact (Nat.zero_mod _).symm
    | succ m ih =>
      intro hm
      have hm' := ih (by omega)
      show (if (x (t + 1 + m + 1)).valid_i &&
          pVsync (trace (step nbits) s0 x (t + 1 + m + 1)) (x (t + 1 + m + 1)) then 0
        else if pnDe (trace (step nbits) s0 x (t + 1 + m + 1)) (x (t + 1 + m + 1)) then
          ((trace (step nbits) s0 x (t + 1 + m + 1)).vcounter + 1) % 2 ^ nbits
        else (trace (step nbits) s0 x (t + 1 + m + 1)).vcounter) = _
      rw [hp, hl, hno m (by omega), Bool.and_false, if_neg (by decide)]
      simp only [countIn]
      rw [hm']
      cases LineEnds x (t + 1 + m)
      · rfl
      · rw [if_pos rfl, if_pos rfl, Nat.mod_add_mod]
  induction k with
  | zero =>
    show (if (x (t + 1 + n + 1)).valid_i then
      (if pVsync (trace (step nbits) s0 x (t + 1 + n + 1)) (x (t + 1 + n + 1)) then _ else _)
      else 0) = _
    rw [hp, hr2, show (x (t + 1 + n + 1)).valid_i = true from hv2 0 (Nat.le_refl _)]
    exact hcount n (Nat.le_refl _)
  | succ k ih =>
    have ih := ih (fun u hu => hv2 u (by omega)) (fun u hu => hno2 u (by omega))
    show (if (x (t + 1 + n + 1 + k + 1)).valid_i then
      (if pVsync (trace (step nbits) s0 x (t + 1 + n + 1 + k + 1)) (x (t + 1 + n + 1 + k + 1)) then _
       else (trace (step nbits) s0 x (t + 1 + n + 1 + k + 1)).vcounter_st) else 0) = _
    rw [hp, hno2 k (by omega), show (x (t + 1 + n + 1 + k + 1)).valid_i = true from
      hv2 (k + 1) (Nat.le_refl _)]
    exact ih

/-- Frames of 5 lines with 3 active ones of 4 pixels: the measured resolution is 4 x 3. -/
def frameIn (t : Nat) : In :=
  { valid_i := true, vsync := 32 ≤ t % 40, de := t % 8 < 4 && t % 40 < 24 }

example : VsyncRises frameIn 31 = true ∧ VsyncRises frameIn 71 = true ∧
    (∀ u, u < 39 → VsyncRises frameIn (32 + u) = false) ∧
    countIn (LineEnds frameIn) 32 39 = 3 ∧
    (trace (step 11) reset frameIn 75).vcounter_st = 3 ∧
    (trace (step 11) reset frameIn 75).hcounter_st = 4 := by decide

end Resolution
end Verif.Props
