import Verif.Model.RgbFloat
import Verif.Spec.Half
import Verif.Spec.Stream

/-! Helper lemmas for the 8-bit / half-float converters (C34-C37). -/

namespace Verif.RgbFloat

open Float16 Spec.Half Spec.Stream

theorem triple_foldl {σ ι ο : Type} (D : PipelinedActor.Datapath σ ι ο) (later : List (Triple ι))
    (s : Triple σ) :
    later.foldl (triple D).step s =
      ⟨(later.map Triple.r).foldl D.step s.r, (later.map Triple.g).foldl D.step s.g,
        (later.map Triple.b).foldl D.step s.b⟩ := by
  induction later generalizing s with
  | nil => rfl
  | cons a l ih => simp only [List.foldl_cons, ih, List.map_cons]; rfl

theorem triple_computes {σ ι ο : Type} (D : PipelinedActor.Datapath σ ι ο) (L : Nat) (f : ι → ο)
    (h : Computes D L f) : Computes (triple D) L (fun x => ⟨f x.r, f x.g, f x.b⟩) := by
  intro s x later hl
  rw [triple_foldl]
  have hr := h s.r x.r (later.map Triple.r) (by simpa using hl)
  have hg := h s.g x.g (later.map Triple.g) (by simpa using hl)
  have hb := h s.b x.b (later.map Triple.b) (by simpa using hl)
  show _ = (⟨f x.r, f x.g, f x.b⟩ : Triple ο)
  rw [← hr, ← hg, ← hb]
  rfl

theorem foldl_lut (s pix : Nat) (h : pix < 256) :
    (List.range 256).foldl (init := s) (fun acc j => if pix = j then lookupTable j else acc) =
      lookupTable pix := by
  have key : ∀ n, pix < n → (List.range n).foldl (init := s)
      (fun acc j => if pix = j then lookupTable j else acc) = lookupTable pix := by
    intro n hn
    induction n with
    | zero => omega
    | succ n ih =>
      rw [List.range_succ, List.foldl_append]
      simp only [List.foldl_cons, List.foldl_nil]
      split
      · rename_i e; rw [e]
      · exact ih (by omega)
  exact key 256 h

/-- What the table datapath computes. -/
theorem lut_step (s : Lut.State) (pix : Nat) (h : pix < 256) :
    (Lut.step s pix).pixf = lookupTable pix := by
  simp only [Lut.step]
  rw [foldl_lut _ _ h]

/-- What `PIXF2PIXDatapath` computes. -/
def fromFloat (w : Nat) : Nat :=
  (fracOf w + 2 ^ 10) / 2 ^ ((15 - (expOf w : Int) - 1) % 2 ^ 5).toNat / 2 ^ 3 % 2 ^ 8

theorem fromFloat_computes : Computes FromFloat.datapath FromFloat.latency fromFloat := by
  intro s x later h
  match later, h with
  | [_], _ => rfl

/-- What `PIX2PIXFDatapath` computes. -/
def toFloat (pix : Nat) : Nat :=
  pix % 2 ^ 7 * 2 ^ 3 * 2 ^ (leadOne 12 pix % 2 ^ 4) % 2 ^ 10
    + ((15 - 1 - ((leadOne 12 pix % 2 ^ 4 : Nat) : Int)) % 2 ^ 5).toNat * 2 ^ 10 + 1 * 2 ^ 15

theorem toFloat_computes : Computes
    (σ := ToFloat.State) ⟨ToFloat.step, ToFloat.State.pixf, ToFloat.reset⟩ ToFloat.latency toFloat := by
  intro s x later h
  match later, h with
  | [_], _ => rfl

theorem fromFloat_floor (w : Nat) (h : w < 0x3C00) : fromFloat w = halfVal w / 2 ^ 16 := by
  unfold fromFloat halfVal expOf fracOf
  simp only [Nat.reducePow, Int.reducePow]
  have he : w / 1024 % 32 < 15 := by omega
  have hf : w % 1024 < 1024 := by omega
  generalize w / 1024 % 32 = e at *
  generalize w % 1024 = f at *
  match e, he with
  | 0, _ => simp; omega
  | 1, _ => simp; omega
  | 2, _ => simp; omega
  | 3, _ => simp; omega
  | 4, _ => simp; omega
  | 5, _ => simp; omega
  | 6, _ => simp; omega
  | 7, _ => simp; omega
  | 8, _ => simp; omega
  | 9, _ => simp; omega
  | 10, _ => simp; omega
  | 11, _ => simp; omega
  | 12, _ => simp; omega
  | 13, _ => simp; omega
  | 14, _ => simp; omega

theorem lookupTable_exact : ∀ n, n < 256 →
    lookupTable n < 0x8000 ∧ halfVal (lookupTable n) = n * 2 ^ 16 := by
  decide +kernel

end Verif.RgbFloat
