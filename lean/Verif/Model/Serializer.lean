import Verif.Bits

/-!
# Output serializers

Model of the serializers behind the TMDS encoders (litevideo/output/hdmi/s6.py:189-243 and
s7.py:12-73) and of the clock lane (s6.py:172-186, s7.py:134-138).  The vendor primitives are
assumed: an `OSERDES2` pair of width 5 sends its inputs D1 to D4 of the slave and D1 of the master
in this order during the following `pix2x` clock; an `OSERDESE2` pair of width 10 sends D1 to D8 of
the master and D3, D4 of the slave in this order during the following pixel clock; an `ODDR2` shows D0
during the high half of its clock and D1 during the low half.  Latencies of the primitives are left
to the delay of the line.
-/

namespace Verif.Serializer

/-! Spartan-6.  One step is one `pix2x` edge. -/
namespace S6

/-- Level of the pixel clock and `self.data` just before the `pix2x` edge. -/
structure In where
  pix : Bool
  data : BitVec 10

/-- `ed_2x_pol` (s6.py:201); it has no reset input (the clock domain is `reset_less`), its initial
value is 0. -/
def reset : BitVec 5 := 0

/-- One `pix2x` edge (s6.py:203): the low half of the word while the pixel clock is high, the high
half while it is low. -/
def step (_ : BitVec 5) (x : In) : BitVec 5 :=
  if x.pix then x.data.extractLsb' 0 5 else x.data.extractLsb' 5 5

/-- `ed_2x` (s6.py:204-207). -/
def ed2x (inverted : Bool) (s : BitVec 5) : BitVec 5 := if inverted then ~~~s else s

/-- The inputs of the two `OSERDES2` in the order in which they are sent: D1 to D4 of the slave and
D1 of the master (s6.py:223,235). -/
def pins (v : BitVec 5) : List Bool :=
  [v.getLsbD 0, v.getLsbD 1, v.getLsbD 2, v.getLsbD 3, v.getLsbD 4]

/-- The clock pad during the high and the low half of the pixel clock (s6.py:172-181). -/
def clockPad (inverted high : Bool) : Bool := if high then !inverted else inverted

end S6

/-! 7-series.  The word handed to the SERDES is `VideoOut.padWord`. -/
namespace S7

/-- The inputs of the two `OSERDESE2` in the order in which they are sent: D1 to D8 of the master and
D3, D4 of the slave (s7.py:47-50,65). -/
def pins (v : BitVec 10) : List Bool :=
  [v.getLsbD 0, v.getLsbD 1, v.getLsbD 2, v.getLsbD 3, v.getLsbD 4, v.getLsbD 5, v.getLsbD 6,
    v.getLsbD 7, v.getLsbD 8, v.getLsbD 9]

/-- The word of the clock lane (s7.py:135-136). -/
def clockWord : BitVec 10 := 0b0000011111

end S7
end Verif.Serializer
