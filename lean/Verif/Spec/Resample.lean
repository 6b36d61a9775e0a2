import Verif.Model.Resample
import Verif.Spec.Stream

/-!
# Chroma resampling on sequences of pixels
-/

namespace Verif.Spec.Resample

open Verif.Csc Spec.Stream

/-- 4:4:4 to 4:2:2: the pixels are taken two by two; the first keeps the mean of the two
Cb, the second the mean of the two Cr, rounded down. -/
def downsample : List Ycbcr → List Ycbcr422
  | a :: b :: rest =>
    ⟨a.y, (a.cb + b.cb) / 2⟩ :: ⟨b.y, (a.cr + b.cr) / 2⟩ :: downsample rest
  | _ => []

/-- 4:2:2 to 4:4:4: the two pixels of a pair share the Cb of the first and the Cr of the
second. -/
def upsample : List Ycbcr422 → List Ycbcr
  | a :: b :: rest =>
    ⟨a.y, a.cb_cr, b.cb_cr⟩ :: ⟨b.y, a.cb_cr, b.cb_cr⟩ :: upsample rest
  | _ => []

/-- Chroma averaged over each pair, luma unchanged. -/
def average : List Ycbcr → List Ycbcr
  | a :: b :: rest =>
    ⟨a.y, (a.cb + b.cb) / 2, (a.cr + b.cr) / 2⟩ ::
    ⟨b.y, (a.cb + b.cb) / 2, (a.cr + b.cr) / 2⟩ :: average rest
  | _ => []

/-- Pixels accepted / delivered by `YCbCr422to444` before clock `t`. -/
def upAccepted (i : Nat → To444.In) (t : Nat) : List Ycbcr422 :=
  transferred (fun u => (i u).valid && To444.sinkReady (trace To444.step To444.reset i u))
    (fun u => (i u).px) t

/-- See `upAccepted`. -/
def upDelivered (i : Nat → To444.In) (t : Nat) : List Ycbcr :=
  transferred (fun u => To444.sourceValid (trace To444.step To444.reset i u) && (i u).ready)
    (fun u => To444.sourceData (trace To444.step To444.reset i u)) t

/-- Pixels accepted / delivered by the chain of the two converters before clock `t`. -/
def chainAccepted (dw : Nat) (i : Nat → Chain.In) (t : Nat) : List Ycbcr :=
  transferred (fun u => (i u).valid && Chain.sinkReady (trace (Chain.step dw) (Chain.reset dw) i u))
    (fun u => (i u).px) t

/-- See `chainAccepted`. -/
def chainDelivered (dw : Nat) (i : Nat → Chain.In) (t : Nat) : List Ycbcr :=
  transferred
    (fun u => To444.sourceValid (trace (Chain.step dw) (Chain.reset dw) i u).up && (i u).ready)
    (fun u => To444.sourceData (trace (Chain.step dw) (Chain.reset dw) i u).up) t

end Verif.Spec.Resample
