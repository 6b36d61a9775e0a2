import Verif.Model.CoreCdc

/-!
# Video output core whose pixel clock domain is reset

On 7-series devices the reset of the `pix` clock domain is asserted while the MMCM that makes the pixel clock
is not locked (output/hdmi/s7.py:80,133), e.g. while software resets the MMCM to change the pixel clock
(`_mmcm_reset`, s7.py:83,102).  With a DRAM port in that domain (`cd = dram_port.cd`, output/__init__.py:39)
this resets the core and the read side of the parameter FIFO, but not its write side, which is in the `sys`
domain (output/core.py:28-31).

Simplification: the reset also forgets the read commands that the memory port has accepted but not answered
(`Core.State.pending`).
-/

namespace Verif.Output.OutputReset

/-- What happens at one instant: as in `CoreCdc.In`, and the reset of the pixel clock domain. -/
structure In extends CoreCdc.In where
  rst : Bool

/-- One instant.  The reset is synchronous: it takes effect at an edge of the pixel clock.  It clears the read
counter of the FIFO; the synchronisers, the memory and its output register have no reset. -/
def step (cfg : Core.Config) (s : CoreCdc.State) (i : In) : CoreCdc.State :=
  if i.cdEdge && i.rst then
    { fifo :=
        { CoreCdc.step cfg s i.toIn |>.fifo with
          consume := 0
          consume_w := s.fifo.consume_w.step i.sysEdge (GrayFifo.gray s.fifo.consume) (GrayFifo.gray 0) i.wOld }
      core := Core.reset }
  else CoreCdc.step cfg s i.toIn

end Verif.Output.OutputReset
