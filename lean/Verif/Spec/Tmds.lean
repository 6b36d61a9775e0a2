import Verif.Bits

/-!
# Independent vocabulary for TMDS properties
-/

namespace Verif.Spec.Tmds

/-- Number of 1 bits of a word. -/
def ones {n : Nat} (w : BitVec n) : Nat :=
  (List.finRange n).countP fun k => w.getLsb k

/-- Ones minus zeros of a word, the net charge it puts on the wire. -/
def imbalance {n : Nat} (w : BitVec n) : Int := 2 * (ones w : Int) - n

/-- Number of positions `k < n - 1` where bits `k` and `k+1` differ. -/
def transitionsBelow {m : Nat} (w : BitVec m) (n : Nat) : Nat :=
  (List.range (n - 1)).countP fun k => w.getLsbD k != w.getLsbD (k + 1)

/-- The four TMDS control words of the DVI specification, indexed by `{C1,C0}`. -/
def tokens : List (BitVec 10) :=
  [0b1101010100#10, 0b0010101011#10, 0b0101010100#10, 0b1010101011#10]

/-- Net charge sent since the wire last carried a non-data word: the sum of the
imbalances of the words `w 0 .. w (t-1)`, restarted at every word whose
data-enable `de k` is 0. -/
def runningDisparity (de : Nat → Bool) (w : Nat → BitVec 10) : Nat → Int
  | 0 => 0
  | t + 1 => if de t then runningDisparity de w t + imbalance (w t) else 0

/-- The two control bits that a control word stands for. -/
def controlBits (w : BitVec 10) : BitVec 2 := BitVec.ofNat 2 (tokens.idxOf w)

/-- The byte that a word stands for (DVI 1.0, section 3.3.3): if bit 9 is set the low eight bits are
inverted; then bit 0 is bit 0, and every other bit is the exclusive or (if bit 8 is set) or the
exclusive nor of two neighbouring bits. -/
def decodeByte (w : BitVec 10) : BitVec 8 :=
  let q := fun i => w.getLsbD i ^^ w.getLsbD 9
  ofBits 8 fun i => if i = 0 then q 0 else if w.getLsbD 8 then q i ^^ q (i - 1) else !(q i ^^ q (i - 1))

end Verif.Spec.Tmds

namespace Verif.Spec.Tmds

/-- A received word that is neither a pixel word nor a control token: more than 4
transitions in its low 9 bits, and not a token up to the inversion bit (bit 9). -/
def isErrorWord (w : BitVec 10) : Bool :=
  decide (transitionsBelow w 9 > 4) && tokens.all fun t => t.setWidth 9 != w.setWidth 9

/-- Word `n` of the stream `w` is a TMDS word as a DVI/HDMI source sends them: a control token next to
another control token (blanking lasts at least two words), or a pixel word (at most 5 transitions). -/
def TmdsAt (w : Nat → BitVec 10) (n : Nat) : Prop :=
  (w n ∈ tokens ∧ ((1 ≤ n ∧ w (n - 1) ∈ tokens) ∨ w (n + 1) ∈ tokens)) ∨
    transitionsBelow (w n) 10 ≤ 5

/-- From word `n0` on the stream `w` consists of TMDS words. -/
def TmdsFrom (w : Nat → BitVec 10) (n0 : Nat) : Prop := ∀ n, n0 ≤ n → TmdsAt w n

/-- From word `n0` on, of any seven consecutive words of the stream `w` three in a row are TMDS
words; the others may be anything. -/
def TmdsOften (w : Nat → BitVec 10) (n0 : Nat) : Prop :=
  ∀ n, n0 ≤ n → ∃ m, n ≤ m ∧ m ≤ n + 4 ∧ TmdsAt w m ∧ TmdsAt w (m + 1) ∧ TmdsAt w (m + 2)

end Verif.Spec.Tmds
