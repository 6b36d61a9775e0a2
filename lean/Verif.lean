import Verif.Props.Tmds
import Verif.Props.Wer
import Verif.Props.CharSync
import Verif.Props.Stream
import Verif.Props.Csc
import Verif.Props.Resample
import Verif.Props.Float
import Verif.Props.RgbFloat
import Verif.Props.Output
import Verif.Props.Genlock
import Verif.Props.Initiator
import Verif.Props.Pattern
import Verif.Props.VideoOut
import Verif.Props.Clocking
import Verif.Props.ClockTree
import Verif.Props.ChanSync
import Verif.Props.Analysis
import Verif.Props.Frame
import Verif.Props.Frame422
import Verif.Props.Dma
import Verif.Props.Capture
import Verif.Props.Isolation
import Verif.Props.HdmiIn
import Verif.Props.Film
import Verif.Props.Loop
import Verif.Props.Passthrough
import Verif.Props.Edid
import Verif.Props.DataCapture
import Verif.Props.Terc4
import Verif.Props.Terminal
import Verif.Props.Receiver
import Verif.Props.CaptureLive
import Verif.Props.Link
import Verif.Props.Delivered
import Verif.Props.Noise
import Verif.Props.DelayLine
import Verif.Props.WerSys
import Verif.Props.Irq
import Verif.Props.Status
import Verif.Props.Bandwidth
import Verif.Props.OutputRate
import Verif.Props.WholeWay
import Verif.Props.GrayFifo
import Verif.Props.LockLoss
import Verif.Props.InitiatorCdc
import Verif.Props.Vga
import Verif.Props.ModeChange
import Verif.Props.Restart
import Verif.Props.Phase
import Verif.Props.Errors
import Verif.Props.SyncErrors
import Verif.Props.Readback
import Verif.Props.DelaySteps
import Verif.Props.HdmiMode
import Verif.Props.RawCopies
import Verif.Props.HotPlug
import Verif.Props.Rate
import Verif.Props.WireToMemory
import Verif.Props.DisplayToMemory
import Verif.Props.LinkErrors
import Verif.Props.Damage
import Verif.Props.Recover
import Verif.Props.OutputReset
import Verif.Props.UnderflowCdc
import Verif.Props.HdmiLock
import Verif.Props.HdmiMemory
import Verif.Props.HdmiResolution
import Verif.Props.HdmiDelivered
