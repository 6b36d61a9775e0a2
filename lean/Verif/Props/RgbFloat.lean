import Verif.Proofs.RgbFloat
import Verif.Props.Stream

/-!
# C34-C37: 8-bit pixels and half floats
-/

namespace Verif.Props

open RgbFloat Spec.Half Spec.Stream

/-- **C34** Every entry `n` of the table is a non-negative half float of value exactly `n/256`
(`n * 2^16` in units of `2^-24`). -/
theorem C34_table (n : Nat) (h : n < 256) :
    lookupTable n < 0x8000 ∧ halfVal (lookupTable n) = n * 2 ^ 16 :=
  lookupTable_exact n h

/-- The table has 256 entries. -/
theorem C34_table_size : lut.length = 256 := by decide +kernel

/-- **C34** The hardware table: after its declared latency of enabled clocks the output is the pixel's half
float. -/
theorem C34_datapath (s : Lut.State) (x : Nat → Nat) (t : Nat) (h : x t < 256) :
    halfVal (trace Lut.step s x (t + Lut.latency)).pixf = x t * 2 ^ 16 := by
  rw [show t + Lut.latency = t + 1 from rfl, trace_succ, lut_step _ _ h]
  exact (lookupTable_exact _ h).2

example : lookupTable 3 = 0x2200 ∧ halfVal 0x2200 = 3 * 2 ^ 16 := by decide

/-- **C36** For every half float in `[0, 1)`, two enabled clocks later the pixel is
`floor(256 * v)`.  Missing: `v = 1`, for which the result is 0 (`C36_violated`). -/
theorem C36_floor_partial (s : FromFloat.State) (x : Nat → Nat) (t : Nat) (h : x t < 0x3C00) :
    (trace FromFloat.step s x (t + 2)).pix = halfVal (x t) * 256 / 2 ^ 24 := by
  have e : (trace FromFloat.step s x (t + 2)).pix = fromFloat (x t) := rfl
  rw [e, fromFloat_floor _ h]
  omega

/-- **C36**, **C29** for the `RGB16f2RGB` actor. -/
theorem C36_stream_partial (i : Nat → PipelinedActor.In (Triple Nat)) (t : Nat)
    (h : ∀ t, (i t).data.r < 0x3C00 ∧ (i t).data.g < 0x3C00 ∧ (i t).data.b < 0x3C00) :
    delivered rgb16f2rgb FromFloat.latency i t <+:
      (accepted rgb16f2rgb FromFloat.latency i t).map (fun x =>
        ⟨halfVal x.r * 256 / 2 ^ 24, halfVal x.g * 256 / 2 ^ 24, halfVal x.b * 256 / 2 ^ 24⟩) ∧
    (accepted rgb16f2rgb FromFloat.latency i t).length ≤
      (delivered rgb16f2rgb FromFloat.latency i t).length + 2 := by
  have hc := C29_in_order_lossless rgb16f2rgb FromFloat.latency (by decide) _
    (triple_computes _ _ _ fromFloat_computes) i t
  refine ⟨?_, hc.2⟩
  have hall : ∀ x ∈ accepted rgb16f2rgb FromFloat.latency i t,
      x.r < 0x3C00 ∧ x.g < 0x3C00 ∧ x.b < 0x3C00 := by
    clear hc
    unfold accepted
    induction t with
    | zero => intro x hx; simp [transferred] at hx
    | succ t ih =>
      intro x hx
      simp only [transferred, List.mem_append] at hx
      rcases hx with hx | hx
      · exact ih x hx
      · split at hx
        · simp only [List.mem_singleton] at hx; rw [hx]; exact h t
        · simp at hx
  have heq : (accepted rgb16f2rgb FromFloat.latency i t).map (fun x =>
        (⟨halfVal x.r * 256 / 2 ^ 24, halfVal x.g * 256 / 2 ^ 24, halfVal x.b * 256 / 2 ^ 24⟩ :
          Triple Nat)) =
      (accepted rgb16f2rgb FromFloat.latency i t).map (fun x =>
        ⟨fromFloat x.r, fromFloat x.g, fromFloat x.b⟩) := by
    apply List.map_congr_left
    intro x hx
    obtain ⟨h1, h2, h3⟩ := hall x hx
    rw [fromFloat_floor _ h1, fromFloat_floor _ h2, fromFloat_floor _ h3]
    simp only [Triple.mk.injEq]
    omega
  rw [heq]
  exact hc.1

/-- C36 on the whole documented range `[0, 1]`. -/
def C36_statement : Prop :=
  ∀ w, w ≤ 0x3C00 → fromFloat w = min 255 (halfVal w * 256 / 2 ^ 24)

/-- **C36** is false at 1.0, which converts to black. -/
theorem C36_violated : ¬ C36_statement ∧
    (trace FromFloat.step FromFloat.reset (fun _ => 0x3C00) 2).pix = 0 := by
  refine ⟨fun h => ?_, by decide⟩
  exact absurd (h 0x3C00 (by decide)) (by decide)

example : fromFloat 0x3BFF = 255 ∧ fromFloat 0x2200 = 3 := by decide

/-- **C35** Table conversion followed by the reverse conversion is the identity on every pixel
stream, three enabled clocks later. -/
theorem C35_roundtrip (x : Nat → Nat) (hx : ∀ t, x t < 256) (t : Nat) :
    (trace FromFloat.step FromFloat.reset (fun u => (trace Lut.step ⟨0⟩ x u).pixf) (t + 3)).pix
      = x t := by
  have hlt : ∀ n, n < 256 → lookupTable n < 0x3C00 := by decide +kernel
  have h1 : (trace Lut.step ⟨0⟩ x (t + 1)).pixf = lookupTable (x t) := by
    rw [trace_succ]; exact lut_step _ _ (hx t)
  have h2 := C36_floor_partial FromFloat.reset (fun u => (trace Lut.step ⟨0⟩ x u).pixf) (t + 1)
    (by simp only [h1]; exact hlt _ (hx t))
  rw [show t + 3 = t + 1 + 2 from rfl, h2]
  simp only [h1]
  rw [(lookupTable_exact _ (hx t)).2]
  omega

/-- C37: `RGB2RGB16f` returns the half float of value `pixel/256`. -/
def C37_statement : Prop :=
  ∀ (s : Triple ToFloat.State) (x y : Triple Nat), x.r < 256 → x.g < 256 → x.b < 256 →
    rgb2rgb16f.out (rgb2rgb16f.step (rgb2rgb16f.step s x) y) =
      ⟨lookupTable x.r, lookupTable x.g, lookupTable x.b⟩

/-- **C37** is false of the code for every pixel value: the datapath used by the actor sets the
sign bit, so each component it delivers is a negative number. -/
theorem C37_violated : ¬ C37_statement ∧
    ∀ (s : Triple ToFloat.State) (x y : Triple Nat), x.r < 256 →
      (rgb2rgb16f.out (rgb2rgb16f.step (rgb2rgb16f.step s x) y)).r ≠ lookupTable x.r ∧
      0x8000 ≤ (rgb2rgb16f.out (rgb2rgb16f.step (rgb2rgb16f.step s x) y)).r := by
  have key : ∀ (s : Triple ToFloat.State) (x y : Triple Nat), x.r < 256 →
      (rgb2rgb16f.out (rgb2rgb16f.step (rgb2rgb16f.step s x) y)).r ≠ lookupTable x.r ∧
      0x8000 ≤ (rgb2rgb16f.out (rgb2rgb16f.step (rgb2rgb16f.step s x) y)).r := by
    intro s x y h
    have e : (rgb2rgb16f.out (rgb2rgb16f.step (rgb2rgb16f.step s x) y)).r = toFloat x.r := rfl
    have hge : 0x8000 ≤ toFloat x.r := by
      unfold toFloat
      simp only [Nat.reducePow]
      omega
    have := (lookupTable_exact _ h).1
    rw [e]
    exact ⟨by omega, hge⟩
  refine ⟨fun h => ?_, key⟩
  have h1 := h ⟨ToFloat.reset, ToFloat.reset, ToFloat.reset⟩ ⟨5, 5, 5⟩ ⟨0, 0, 0⟩
    (by decide) (by decide) (by decide)
  have h2 := (key ⟨ToFloat.reset, ToFloat.reset, ToFloat.reset⟩ ⟨5, 5, 5⟩ ⟨0, 0, 0⟩ (by decide)).1
  rw [h1] at h2
  exact h2 rfl

/-- Besides the sign, the magnitude is wrong too: 255 comes out as `-1.875 * 2^-5`, not 255/256,
because a 12-bit leading-one detector is used for an 8-bit pixel. -/
theorem C37_magnitude : toFloat 255 % 0x8000 = 0x2B80 ∧ lookupTable 255 = 0x3BF8 := by decide

/-- **C37**, the part that holds (**C29** for the actor): the stream is neither reordered nor
does it lose pixels. -/
theorem C37_stream_partial (i : Nat → PipelinedActor.In (Triple Nat)) (t : Nat) :
    delivered rgb2rgb16f ToFloat.latency i t <+:
      (accepted rgb2rgb16f ToFloat.latency i t).map
        (fun x => ⟨toFloat x.r, toFloat x.g, toFloat x.b⟩) ∧
    (accepted rgb2rgb16f ToFloat.latency i t).length ≤
      (delivered rgb2rgb16f ToFloat.latency i t).length + 2 :=
  C29_in_order_lossless rgb2rgb16f ToFloat.latency (by decide) _
    (triple_computes _ _ _ toFloat_computes) i t

end Verif.Props
