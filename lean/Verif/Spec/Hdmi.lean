import Verif.Spec.Tmds

/-!
# Independent vocabulary for HDMI periods

An HDMI link carries, per pixel clock, one 10-bit word on each of three channels.  A source
alternates control periods with video periods (guard band, then pixels) and data islands
(leading guard band, TERC4 words, trailing guard band).
-/

namespace Verif.Spec.Hdmi

/-- The words of the three channels during one pixel clock. -/
structure Triple where
  c0 : BitVec 10
  c1 : BitVec 10
  c2 : BitVec 10
deriving DecidableEq, Repr

/-- What a source is sending during one pixel clock. -/
inductive Phase where
  /-- control words on all channels -/
  | control
  /-- video guard band -/
  | videoGuard
  /-- a pixel -/
  | pixel
  /-- leading guard band of a data island -/
  | islandLead
  /-- data island contents -/
  | island
  /-- trailing guard band of a data island -/
  | islandTrail
deriving DecidableEq, Repr

/-- The video guard band of the HDMI specification. -/
def videoGuard : Triple := ⟨0b1011001100#10, 0b0100110011#10, 0b1011001100#10⟩

/-- The word of the data island guard band on channels 1 and 2. -/
def islandGuard : BitVec 10 := 0b0100110011#10

/-- The 16 TERC4 words of the HDMI specification, in the order of the nibble they carry. -/
def terc4 : List (BitVec 10) :=
  [0b1010011100#10, 0b1001100011#10, 0b1011100100#10, 0b1011100010#10,
   0b0101110001#10, 0b0100011110#10, 0b0110001110#10, 0b0100111100#10,
   0b1011001100#10, 0b0100111001#10, 0b0110011100#10, 0b1011000110#10,
   0b1010001110#10, 0b1001110001#10, 0b0101100011#10, 0b1011000011#10]

/-- Which phase may follow which. -/
def follows : Phase → Phase → Bool
  | .control, .control => true
  | .control, .videoGuard => true
  | .control, .islandLead => true
  | .videoGuard, .videoGuard => true
  | .videoGuard, .pixel => true
  | .pixel, .pixel => true
  | .pixel, .control => true
  | .islandLead, .islandLead => true
  | .islandLead, .island => true
  | .island, .island => true
  | .island, .islandTrail => true
  | .islandTrail, .islandTrail => true
  | .islandTrail, .control => true
  | _, _ => false

/-- What the three channels carry in each phase.  Pixels are only known not to be control words
(C03): any data word may occur. -/
def carries : Phase → Triple → Prop
  | .control, w => w.c0 ∈ Tmds.tokens ∧ w.c1 ∈ Tmds.tokens ∧ w.c2 ∈ Tmds.tokens
  | .videoGuard, w => w = videoGuard
  | .pixel, w => w.c0 ∉ Tmds.tokens ∧ w.c1 ∉ Tmds.tokens ∧ w.c2 ∉ Tmds.tokens
  | .islandLead, w => w.c0 ∈ terc4 ∧ w.c1 = islandGuard ∧ w.c2 = islandGuard
  | .island, w => w.c0 ∈ terc4 ∧ w.c1 ∈ terc4 ∧ w.c2 ∈ terc4
  | .islandTrail, w => w.c0 ∈ terc4 ∧ w.c1 = islandGuard ∧ w.c2 = islandGuard

/-- The preamble of a data island: control word `{C1,C0} = 01` on channels 1 and 2. -/
def islandPreamble (w : Triple) : Prop := w.c1 = 0b0010101011#10 ∧ w.c2 = 0b0010101011#10

/-- From clock `n0` on, where two control words come first, the words `w` are sent by an HDMI
source that goes through the phases `ph`.  A control period lasts at least two words (HDMI
requires twelve), and a data island is announced by at least three preamble words (HDMI requires
eight). -/
structure Sends (ph : Nat → Phase) (w : Nat → Triple) (n0 : Nat) : Prop where
  first : ph n0 = .control
  second : ph (n0 + 1) = .control
  next : ∀ t, n0 ≤ t → follows (ph t) (ph (t + 1)) = true
  blanking : ∀ t, n0 ≤ t → ph t ≠ .control → ph (t + 1) = .control → ph (t + 2) = .control
  word : ∀ t, n0 ≤ t → carries (ph t) (w t)
  preamble : ∀ t, n0 ≤ t → ph t = .control → ph (t + 1) = .islandLead →
    n0 + 2 ≤ t ∧ ∀ u, t < u + 3 → u ≤ t → ph u = .control ∧ islandPreamble (w u)

/-- Clock `t` carries a pixel, and on its line, up to and including `t`, some pixel differed from
the video guard band. -/
def Seen (ph : Nat → Phase) (w : Nat → Triple) (t : Nat) : Prop :=
  ∃ u, u ≤ t ∧ (∀ v, u ≤ v → v ≤ t → ph v = .pixel) ∧ w u ≠ videoGuard

/-- Clock `t + 1` carries the first control word after a line of pixels all of which look like the
video guard band. -/
def GuardLine (ph : Nat → Phase) (w : Nat → Triple) (t : Nat) : Prop :=
  ph (t + 1) = .control ∧ ph t = .pixel ∧ ¬ Seen ph w t

/-- The word of channel `i`. -/
def Triple.channel (w : Triple) (i : Nat) : BitVec 10 :=
  match i with
  | 0 => w.c0
  | 1 => w.c1
  | _ => w.c2

/-- A receiver can find the words of a source that sends the phases `ph`, whatever it received before clock
`n0`: ten control words come first, and later, from `f` to `g - 1`, a complete video period or data island of
at least 15 words (guard bands included) with ten control words behind it.  HDMI requires twelve control words
in every control period and 36 words in every data island. -/
structure Acquire (ph : Nat → Phase) (n0 f g : Nat) : Prop where
  blank : ∀ n, n0 ≤ n → n ≤ n0 + 9 → ph n = .control
  later : n0 + 25 ≤ f
  before : ph (f - 1) = .control
  period : ∀ n, f ≤ n → n < g → ph n ≠ .control
  long : f + 15 ≤ g
  after : ∀ n, g ≤ n → n ≤ g + 9 → ph n = .control

/-- The words of pixels are TMDS words: they have at most five transitions (C03). -/
def TmdsPixels (ph : Nat → Phase) (w : Nat → Triple) (n0 : Nat) : Prop :=
  ∀ n i, n0 ≤ n → ph n = .pixel → i < 3 → Tmds.transitionsBelow ((w n).channel i) 10 ≤ 5

/-- The source sends the sync levels `c n` (bit 0 hsync, bit 1 vsync) with word `n` outside video periods:
control words of channel 0 stand for the two levels, and in data islands, guard bands included, they are the
low two bits of the nibble of channel 0. -/
def CarriesSyncs (ph : Nat → Phase) (w : Nat → Triple) (c : Nat → BitVec 2) (n0 : Nat) : Prop :=
  ∀ n, n0 ≤ n → (ph n = .control → Tmds.controlBits (w n).c0 = c n) ∧
    (ph n = .islandLead ∨ ph n = .island ∨ ph n = .islandTrail →
      ∃ v : Fin 16, (w n).c0 = terc4[v] ∧ c n = BitVec.ofNat 2 v)

/-- Word `e` is the last pixel of a line. -/
def LastPixel (ph : Nat → Phase) (e : Nat) : Prop := ph e = .pixel ∧ ph (e + 1) ≠ .pixel

end Verif.Spec.Hdmi
