import Verif.Spec.Resample
import Verif.Spec.Csc
import Verif.Proofs.PipelinedActor

/-! Helper lemmas for chroma resampling (C26, C27, C28). -/

namespace Verif.Csc

open Spec.Resample Spec.Stream Spec.Csc

/-! ## Lists -/

theorem getD_append_left {α} (A : List α) (x : α) (d : α) (k : Nat) (h : k < A.length) :
    (A ++ [x]).getD k d = A.getD k d := by
  simp [List.getD_eq_getElem?_getD, List.getElem?_append_left h]

theorem getD_append_length {α} (A : List α) (x : α) (d : α) :
    (A ++ [x]).getD A.length d = x := by
  simp [List.getD_eq_getElem?_getD]

def zeroPx : Ycbcr := ⟨0, 0, 0⟩

/-- The `k`-th pixel of `downsample A`. -/
def dsAt (A : List Ycbcr) (k : Nat) : Ycbcr422 :=
  let a := A.getD (2 * (k / 2)) zeroPx
  let b := A.getD (2 * (k / 2) + 1) zeroPx
  if k % 2 = 0 then ⟨a.y, (a.cb + b.cb) / 2⟩ else ⟨b.y, (a.cr + b.cr) / 2⟩

theorem downsample_get (A : List Ycbcr) : ∀ k, k < 2 * (A.length / 2) →
    (downsample A)[k]? = some (dsAt A k) := by
  match A with
  | [] => intro k h; simp at h
  | [a] => intro k h; simp at h
  | a :: b :: rest =>
    intro k h
    match k with
    | 0 => simp [downsample, dsAt]
    | 1 => simp [downsample, dsAt]
    | k + 2 =>
      have h' : k < 2 * (rest.length / 2) := by simp only [List.length_cons] at h; omega
      have := downsample_get rest k h'
      simp only [downsample, List.getElem?_cons_succ, this]
      unfold dsAt
      rw [show (k + 2) / 2 = k / 2 + 1 by omega, show (k + 2) % 2 = k % 2 by omega,
        show 2 * (k / 2 + 1) = 2 * (k / 2) + 1 + 1 by omega]
      simp only [List.getD_cons_succ]

theorem downsample_length (A : List Ycbcr) : (downsample A).length = 2 * (A.length / 2) := by
  match A with
  | [] => rfl
  | [a] => simp [downsample]
  | a :: b :: rest =>
    simp only [downsample, List.length_cons, downsample_length rest]
    omega

theorem take_succ_eq {α} (l : List α) (n : Nat) (v : α) (h : l[n]? = some v) :
    l.take (n + 1) = l.take n ++ [v] := by
  rw [List.take_add_one, h]; rfl

theorem downsample_prefix (A : List Ycbcr) (x : Ycbcr) : downsample A <+: downsample (A ++ [x]) := by
  match A with
  | [] => simp [downsample]
  | [a] => simp [downsample]
  | a :: b :: rest =>
    have := downsample_prefix rest x
    simp only [List.cons_append, downsample]
    exact (List.prefix_cons_inj _).2 ((List.prefix_cons_inj _).2 this)

theorem take_of_prefix {α} {l m : List α} (h : l <+: m) (n : Nat) (hn : n ≤ l.length) :
    m.take n = l.take n := by
  obtain ⟨r, rfl⟩ := h
  rw [List.take_append_of_le_length hn]

/-! ## Downsampling -/

namespace To422

open PipelinedActor

/-- State of the actor after `A` has been accepted and `B` delivered, when every clock offers
a pixel. -/
structure Inv (dw : Nat) (A : List Ycbcr) (B : List Ycbcr422) (s : PipelinedActor.State State) :
    Prop where
  valid : s.valid = [decide (1 ≤ A.length), decide (2 ≤ A.length), decide (3 ≤ A.length)]
  parity : s.dp.parity = decide (A.length % 2 = 1)
  d1 : 1 ≤ A.length → s.dp.d1 = A.getD (A.length - 1) zeroPx
  d2 : 2 ≤ A.length → s.dp.d2 = A.getD (A.length - 2) zeroPx
  cb : 2 ≤ A.length → s.dp.cb_sum =
    (A.getD (2 * (A.length / 2) - 2) zeroPx).cb + (A.getD (2 * (A.length / 2) - 1) zeroPx).cb
  cr : 2 ≤ A.length → s.dp.cr_sum =
    (A.getD (2 * (A.length / 2) - 2) zeroPx).cr + (A.getD (2 * (A.length / 2) - 1) zeroPx).cr
  src : 3 ≤ A.length → s.dp.source = dsAt A (A.length - 3)
  out : B = (downsample A).take (A.length - 3)
  fits : ∀ k, YcbcrFits dw (A.getD k zeroPx)

theorem slice1 (dw : Nat) (a b : Int) (ha : 0 ≤ a ∧ a < 2 ^ dw) (hb : 0 ≤ b ∧ b < 2 ^ dw) :
    sliceFrom (dw + 1) 1 (a + b) = (a + b) / 2 := by
  have e : (2:Int) ^ (dw + 1) = 2 * 2 ^ dw := by rw [Int.pow_succ]; omega
  unfold sliceFrom
  rw [Int.emod_eq_of_lt (by omega) (by rw [e]; omega)]
  rfl

theorem wrap1 (dw : Nat) (a b : Int) (ha : 0 ≤ a ∧ a < 2 ^ dw) (hb : 0 ≤ b ∧ b < 2 ^ dw) :
    wrapU (dw + 1) (a + b) = a + b := by
  have e : (2:Int) ^ (dw + 1) = 2 * 2 ^ dw := by rw [Int.pow_succ]; omega
  exact wrapU_of_range (by omega) (by rw [e]; omega)

theorem inv_reset (dw : Nat) : Inv dw [] [] (PipelinedActor.reset (datapath dw) latency) := by
  constructor <;> try (intro h; simp at h; done)
  · rfl
  · rfl
  · rfl
  · intro k
    have := two_pow_pos_int dw
    simp [YcbcrFits, zeroPx, this]

theorem inv_step {dw : Nat} {A : List Ycbcr} {B : List Ycbcr422} {s : PipelinedActor.State State}
    (h : Inv dw A B s) (x : Ycbcr) (ready : Bool) (hx : YcbcrFits dw x)
    (hce : pipeCe s ready = true) :
    Inv dw (A ++ [x]) (B ++ (if PipelinedActor.sourceValid s && ready then [s.dp.source] else []))
      (PipelinedActor.step (datapath dw) s ⟨true, x, ready⟩) := by
  obtain ⟨hv, hp, hd1, hd2, hcb, hcr, hsrc, hout, hfit⟩ := h
  have hsv : PipelinedActor.sourceValid s = decide (3 ≤ A.length) := by
    unfold PipelinedActor.sourceValid; rw [hv]; rfl
  have hstep : PipelinedActor.step (datapath dw) s ⟨true, x, ready⟩ =
      { valid := [true, decide (1 ≤ A.length), decide (2 ≤ A.length)],
        dp := step dw s.dp ⟨x, false⟩ } := by
    unfold PipelinedActor.step
    simp only [hce, if_true, hv]
    rfl
  rw [hstep]
  have hlen : (A ++ [x]).length = A.length + 1 := by simp
  have gl : ∀ k, k < A.length → (A ++ [x]).getD k zeroPx = A.getD k zeroPx :=
    fun k hk => getD_append_left A x zeroPx k hk
  have gx : (A ++ [x]).getD A.length zeroPx = x := getD_append_length A x zeroPx
  constructor
  · rw [hlen]
    simp only [List.cons.injEq, and_true, decide_eq_decide, eq_comm (a := true), decide_eq_true_eq]
    omega
  · rw [hlen]
    simp only [step, hp, Bool.false_or]
    rw [← decide_not, decide_eq_decide]
    omega
  · intro _
    rw [hlen, Nat.add_sub_cancel, gx]
    rfl
  · intro h2
    rw [hlen] at h2 ⊢
    rw [show A.length + 1 - 2 = A.length - 1 by omega, gl _ (by omega), ← hd1 (by omega)]
    rfl
  · intro h2
    rw [hlen] at h2 ⊢
    simp only [step, hp, decide_eq_true_eq]
    split
    · rename_i hodd
      rw [show 2 * ((A.length + 1) / 2) - 2 = A.length - 1 by omega,
        show 2 * ((A.length + 1) / 2) - 1 = A.length by omega, gx, gl _ (by omega),
        hd1 (by omega), wrap1 dw _ _ hx.2.1 (hfit _).2.1]
      omega
    · rw [show 2 * ((A.length + 1) / 2) = 2 * (A.length / 2) by omega, gl _ (by omega),
        gl _ (by omega), hcb (by omega)]
  · intro h2
    rw [hlen] at h2 ⊢
    simp only [step, hp, decide_eq_true_eq]
    split
    · rename_i hodd
      rw [show 2 * ((A.length + 1) / 2) - 2 = A.length - 1 by omega,
        show 2 * ((A.length + 1) / 2) - 1 = A.length by omega, gx, gl _ (by omega),
        hd1 (by omega), wrap1 dw _ _ hx.2.2 (hfit _).2.2]
      omega
    · rw [show 2 * ((A.length + 1) / 2) = 2 * (A.length / 2) by omega, gl _ (by omega),
        gl _ (by omega), hcr (by omega)]
  · intro h3
    rw [hlen] at h3 ⊢
    simp only [step, hp, decide_eq_true_eq]
    rw [show A.length + 1 - 3 = A.length - 2 by omega]
    unfold dsAt
    split
    · rename_i hodd
      rw [if_neg (by omega), gl _ (by omega), gl _ (by omega), hcr (by omega), hd2 (by omega),
        slice1 dw _ _ (hfit _).2.2 (hfit _).2.2]
      rw [show 2 * ((A.length - 2) / 2) = 2 * (A.length / 2) - 2 by omega,
        show 2 * (A.length / 2) - 2 + 1 = 2 * (A.length / 2) - 1 by omega,
        show A.length - 2 = 2 * (A.length / 2) - 1 by omega]
    · rename_i hodd
      rw [if_pos (by omega), gl _ (by omega), gl _ (by omega), hcb (by omega), hd2 (by omega),
        slice1 dw _ _ (hfit _).2.1 (hfit _).2.1]
      rw [show 2 * ((A.length - 2) / 2) = 2 * (A.length / 2) - 2 by omega,
        show 2 * (A.length / 2) - 2 + 1 = 2 * (A.length / 2) - 1 by omega,
        show A.length - 2 = 2 * (A.length / 2) - 2 by omega]
  · rw [hlen, hsv, hout]
    have hpre := downsample_prefix A x
    by_cases h3 : 3 ≤ A.length
    · have hr : ready = true := by
        unfold pipeCe at hce; rw [hsv] at hce; simpa [h3] using hce
      simp only [h3, decide_true, hr, Bool.and_self, if_true]
      have hl : A.length - 3 < 2 * (A.length / 2) := by omega
      rw [take_of_prefix hpre _ (by rw [downsample_length]; omega),
        show A.length + 1 - 3 = (A.length - 3) + 1 by omega,
        take_succ_eq _ _ _ (downsample_get A _ hl), hsrc h3]
    · simp only [h3, decide_false, Bool.false_and, Bool.false_eq_true, if_false, List.append_nil]
      rw [show A.length - 3 = 0 by omega, show A.length + 1 - 3 = 0 by omega]
      rfl
  · intro k
    by_cases hk : k < A.length
    · rw [gl k hk]; exact hfit k
    · by_cases hk2 : k = A.length
      · rw [hk2, gx]; exact hx
      · rw [List.getD_eq_getElem?_getD, List.getElem?_eq_none (by rw [hlen]; omega)]
        have := two_pow_pos_int dw
        simp [YcbcrFits, zeroPx, this]

/-- With a pixel offered on every clock the actor satisfies `Inv` forever. -/
theorem inv_run (dw : Nat) (i : Nat → PipelinedActor.In Ycbcr) (hv : ∀ t, (i t).valid = true)
    (hfit : ∀ t, YcbcrFits dw (i t).data) (t : Nat) :
    Inv dw (accepted (datapath dw) latency i t) (delivered (datapath dw) latency i t)
      (trace (PipelinedActor.step (datapath dw)) (PipelinedActor.reset (datapath dw) latency) i t) := by
  induction t with
  | zero => exact inv_reset dw
  | succ t ih =>
    have hi : i t = ⟨true, (i t).data, (i t).ready⟩ := by
      rw [← hv t]
    simp only [accepted, delivered, transferred, trace_succ] at ih ⊢
    generalize trace (PipelinedActor.step (datapath dw)) (PipelinedActor.reset (datapath dw) latency)
      i t = s at ih ⊢
    by_cases hce : pipeCe s (i t).ready = true
    · have := inv_step ih (i t).data (i t).ready (hfit t) hce
      rw [hv t, hce]
      rw [← hi] at this
      exact this
    · have hce' : pipeCe s (i t).ready = false := by simpa using hce
      have hs : PipelinedActor.step (datapath dw) s (i t) = s := by
        unfold PipelinedActor.step; rw [hce']; rfl
      have hsr : (PipelinedActor.sourceValid s && (i t).ready) = false := by
        unfold pipeCe at hce'
        revert hce'
        cases PipelinedActor.sourceValid s <;> cases (i t).ready <;> decide
      rw [hs, hce', hsr]
      simpa using ih

end To422

/-! ## Upsampling -/

namespace To444

/-- Elements at even / odd positions. -/
def evens {α} : List α → List α
  | [] => []
  | [a] => [a]
  | a :: _ :: r => a :: evens r

def odds {α} : List α → List α
  | [] => []
  | [_] => []
  | _ :: b :: r => b :: odds r

theorem evens_append {α} (A : List α) (x : α) :
    evens (A ++ [x]) = evens A ++ (if A.length % 2 = 0 then [x] else []) := by
  match A with
  | [] => rfl
  | [a] => rfl
  | a :: b :: r =>
    have := evens_append r x
    simp only [List.cons_append, evens, this, List.length_cons,
      show (r.length + 1 + 1) % 2 = r.length % 2 by omega]

theorem odds_append {α} (A : List α) (x : α) :
    odds (A ++ [x]) = odds A ++ (if A.length % 2 = 1 then [x] else []) := by
  match A with
  | [] => rfl
  | [a] => rfl
  | a :: b :: r =>
    have := odds_append r x
    simp only [List.cons_append, odds, this, List.length_cons,
      show (r.length + 1 + 1) % 2 = r.length % 2 by omega]

theorem evens_length {α} (A : List α) : (evens A).length = (A.length + 1) / 2 := by
  match A with
  | [] => simp [evens]
  | [a] => simp [evens]
  | a :: b :: r =>
    have := evens_length r
    simp only [evens, List.length_cons, this]
    omega

theorem odds_length {α} (A : List α) : (odds A).length = A.length / 2 := by
  match A with
  | [] => simp [odds]
  | [a] => simp [odds]
  | a :: b :: r =>
    have := odds_length r
    simp only [odds, List.length_cons, this]
    omega

theorem upsample_length (A : List Ycbcr422) : (upsample A).length = 2 * (A.length / 2) := by
  match A with
  | [] => rfl
  | [a] => simp [upsample]
  | a :: b :: rest =>
    simp only [upsample, List.length_cons, upsample_length rest]
    omega

theorem upsample_prefix (A : List Ycbcr422) (x : Ycbcr422) : upsample A <+: upsample (A ++ [x]) := by
  match A with
  | [] => simp [upsample]
  | [a] => simp [upsample]
  | a :: b :: rest =>
    have := upsample_prefix rest x
    simp only [List.cons_append, upsample]
    exact (List.prefix_cons_inj _).2 ((List.prefix_cons_inj _).2 this)

theorem upsample_get (A : List Ycbcr422) : ∀ k, k < 2 * (A.length / 2) →
    (upsample A)[k]? = some
      { y := ((A.map Ycbcr422.y).drop k).headD 0
        cb := (((evens A).map Ycbcr422.cb_cr).drop (k / 2)).headD 0
        cr := (((odds A).map Ycbcr422.cb_cr).drop (k / 2)).headD 0 } := by
  match A with
  | [] => intro k h; simp at h
  | [a] => intro k h; simp at h
  | a :: b :: rest =>
    intro k h
    match k with
    | 0 => simp [upsample, evens, odds]
    | 1 => simp [upsample, evens, odds]
    | k + 2 =>
      have h' : k < 2 * (rest.length / 2) := by simp only [List.length_cons] at h; omega
      have := upsample_get rest k h'
      simp only [upsample, List.getElem?_cons_succ, this, evens, odds, List.map_cons]
      rw [show (k + 2) / 2 = k / 2 + 1 by omega]
      simp only [List.drop_succ_cons]

/-- State after `A` has been accepted and `B` delivered. -/
structure Inv (A : List Ycbcr422) (B : List Ycbcr) (s : State) : Prop where
  y : s.y = (A.map Ycbcr422.y).drop B.length
  cb : s.cb = ((evens A).map Ycbcr422.cb_cr).drop (B.length / 2)
  cr : s.cr = ((odds A).map Ycbcr422.cb_cr).drop (B.length / 2)
  parity_in : s.parity_in = decide (A.length % 2 = 1)
  parity_out : s.parity_out = decide (B.length % 2 = 1)
  out : B = (upsample A).take B.length
  depth : A.length ≤ B.length + 4
  le : B.length ≤ 2 * (A.length / 2)

theorem inv_reset : Inv [] [] reset := by
  constructor <;> simp [reset, evens, odds]

section
variable {A : List Ycbcr422} {B : List Ycbcr} {s : State} (h : Inv A B s)
include h

theorem Inv.y_length : s.y.length = A.length - B.length := by rw [h.y]; simp
theorem Inv.cb_length : s.cb.length = (A.length + 1) / 2 - B.length / 2 := by
  rw [h.cb]; simp [evens_length]
theorem Inv.cr_length : s.cr.length = A.length / 2 - B.length / 2 := by
  rw [h.cr]; simp [odds_length]

omit h in
theorem isEmpty_eq {α} (l : List α) : l.isEmpty = decide (l.length = 0) := by
  cases l <;> simp

theorem Inv.sourceValid : sourceValid s = decide (B.length < 2 * (A.length / 2)) := by
  have hy := h.y_length; have hb := h.cb_length; have hr := h.cr_length; have hl := h.le
  have hd := h.depth
  unfold To444.sourceValid
  simp only [isEmpty_eq, hy, hb, hr, ← decide_not, ← Bool.decide_and, decide_eq_decide]
  omega

theorem Inv.sinkReady : sinkReady s = decide (A.length < B.length + 4) := by
  have hy := h.y_length; have hb := h.cb_length; have hr := h.cr_length; have hl := h.le
  have hd := h.depth
  unfold To444.sinkReady
  rw [hy, hb, hr]
  split <;> (simp only [← Bool.decide_and, decide_eq_decide]; omega)

theorem Inv.data (hv : B.length < 2 * (A.length / 2)) :
    (upsample A)[B.length]? = some (sourceData s) := by
  rw [upsample_get A _ hv]
  unfold sourceData
  rw [h.y, h.cb, h.cr]

end

theorem tail_drop {α} (l : List α) (n : Nat) : (l.drop n).tail = l.drop (n + 1) := by
  simp

/-- Popping. -/
theorem inv_pop {A B s} (h : Inv A B s) (hv : sourceValid s = true) :
    Inv A (B ++ [sourceData s])
      { y := s.y.tail, cb := if s.parity_out then s.cb.tail else s.cb,
        cr := if s.parity_out then s.cr.tail else s.cr,
        parity_in := s.parity_in, parity_out := !s.parity_out } := by
  rw [h.sourceValid, decide_eq_true_eq] at hv
  have hlen : (B ++ [sourceData s]).length = B.length + 1 := by simp
  constructor <;> try simp only [hlen]
  · rw [h.y, tail_drop]
  · rw [h.parity_out]
    by_cases ho : B.length % 2 = 1
    · simp only [ho, decide_true, if_true]
      rw [h.cb, tail_drop, show B.length / 2 + 1 = (B.length + 1) / 2 by omega]
    · simp only [ho, decide_false, Bool.false_eq_true, if_false]
      rw [h.cb, show (B.length + 1) / 2 = B.length / 2 by omega]
  · rw [h.parity_out]
    by_cases ho : B.length % 2 = 1
    · simp only [ho, decide_true, if_true]
      rw [h.cr, tail_drop, show B.length / 2 + 1 = (B.length + 1) / 2 by omega]
    · simp only [ho, decide_false, Bool.false_eq_true, if_false]
      rw [h.cr, show (B.length + 1) / 2 = B.length / 2 by omega]
  · exact h.parity_in
  · rw [h.parity_out, ← decide_not, decide_eq_decide]; omega
  · rw [take_succ_eq _ _ _ (h.data hv), ← h.out]
  · have := h.depth; omega
  · omega

/-- Pushing. -/
theorem inv_push {A B s} (h : Inv A B s) (x : Ycbcr422) (hd : A.length < B.length + 4) :
    Inv (A ++ [x]) B
      { y := s.y ++ [x.y], cb := if !s.parity_in then s.cb ++ [x.cb_cr] else s.cb,
        cr := if s.parity_in then s.cr ++ [x.cb_cr] else s.cr,
        parity_in := !s.parity_in, parity_out := s.parity_out } := by
  have hle := h.le
  have hlen : (A ++ [x]).length = A.length + 1 := by simp
  constructor <;> try simp only [hlen]
  · rw [h.y, List.map_append, List.drop_append_of_le_length (by simp; omega)]; rfl
  · rw [h.parity_in, evens_append, List.map_append,
      List.drop_append_of_le_length (by simp [evens_length]; omega), ← h.cb]
    by_cases ho : A.length % 2 = 1
    · simp [ho]
    · have ho' : A.length % 2 = 0 := by omega
      simp [ho']
  · rw [h.parity_in, odds_append, List.map_append,
      List.drop_append_of_le_length (by simp [odds_length]; omega), ← h.cr]
    by_cases ho : A.length % 2 = 1
    · simp [ho]
    · simp [ho]
  · rw [h.parity_in, ← decide_not, decide_eq_decide]; omega
  · exact h.parity_out
  · rw [take_of_prefix (upsample_prefix A x) _ (by rw [upsample_length]; exact hle)]
    exact h.out
  · omega
  · omega

theorem inv_step {A B s} (h : Inv A B s) (i : In) (hr : i.reset = false) :
    Inv (A ++ (if i.valid && sinkReady s then [i.px] else []))
      (B ++ (if sourceValid s && i.ready then [sourceData s] else [])) (step s i) := by
  unfold step
  rw [hr]
  simp only [Bool.false_eq_true, if_false]
  by_cases hpush : (i.valid && sinkReady s) = true
  · have hd : A.length < B.length + 4 := by
      have := h.sinkReady
      simp only [Bool.and_eq_true] at hpush
      rw [hpush.2] at this
      simpa using this.symm
    by_cases hpop : (sourceValid s && i.ready) = true
    · simp only [hpush, hpop, if_true, Bool.true_and]
      have hv : sourceValid s = true := by simp only [Bool.and_eq_true] at hpop; exact hpop.1
      have := inv_push (inv_pop h hv) i.px (by simp; omega)
      exact this
    · simp only [hpush, hpop, if_true, Bool.true_and, Bool.false_and, Bool.false_eq_true, if_false,
        List.append_nil]
      exact inv_push h i.px hd
  · by_cases hpop : (sourceValid s && i.ready) = true
    · simp only [hpush, hpop, if_true, Bool.true_and, Bool.false_and, Bool.false_eq_true, if_false,
        List.append_nil]
      have hv : sourceValid s = true := by simp only [Bool.and_eq_true] at hpop; exact hpop.1
      exact inv_pop h hv
    · simp only [hpush, hpop, Bool.false_and, Bool.false_eq_true, if_false,
        List.append_nil]
      exact h

theorem inv_run (i : Nat → In) (hr : ∀ t, (i t).reset = false) (t : Nat) :
    Inv (upAccepted i t) (upDelivered i t) (trace step reset i t) := by
  induction t with
  | zero => exact inv_reset
  | succ t ih => exact inv_step ih (i t) (hr t)

end To444

/-! ## The chain -/

theorem upsample_downsample (A : List Ycbcr) : upsample (downsample A) = average A := by
  match A with
  | [] => rfl
  | [a] => simp [downsample, upsample, average]
  | a :: b :: rest =>
    simp only [downsample, upsample, average, upsample_downsample rest]

theorem upsample_take_prefix : ∀ (A : List Ycbcr422) (n : Nat), upsample (A.take n) <+: upsample A
  | [], n => by simp
  | [a], 0 => by simp [upsample]
  | [a], n + 1 => by simp
  | a :: b :: rest, 0 => by simp [upsample]
  | a :: b :: rest, 1 => by simp [upsample]
  | a :: b :: rest, n + 2 => by
    simp only [List.take_succ_cons, upsample]
    exact (List.prefix_cons_inj _).2 ((List.prefix_cons_inj _).2 (upsample_take_prefix rest n))

namespace Chain

/-- The inputs seen by the first converter inside the chain. -/
def downIn (dw : Nat) (i : Nat → In) (t : Nat) : PipelinedActor.In Ycbcr :=
  ⟨(i t).valid, (i t).px, To444.sinkReady (trace (step dw) (reset dw) i t).up⟩

/-- The inputs seen by the second converter inside the chain. -/
def upIn (dw : Nat) (i : Nat → In) (t : Nat) : To444.In :=
  ⟨false, PipelinedActor.sourceValid (trace (step dw) (reset dw) i t).down,
    (trace (step dw) (reset dw) i t).down.dp.source, (i t).ready⟩

theorem down_eq (dw : Nat) (i : Nat → In) (t : Nat) :
    (trace (step dw) (reset dw) i t).down =
      trace (PipelinedActor.step (To422.datapath dw))
        (PipelinedActor.reset (To422.datapath dw) To422.latency) (downIn dw i) t := by
  induction t with
  | zero => rfl
  | succ t ih => rw [trace_succ, trace_succ, ← ih]; rfl

theorem up_eq (dw : Nat) (i : Nat → In) (t : Nat) :
    (trace (step dw) (reset dw) i t).up = trace To444.step To444.reset (upIn dw i) t := by
  induction t with
  | zero => rfl
  | succ t ih => rw [trace_succ, trace_succ, ← ih]; rfl

theorem transferred_congr {α} {f g : Nat → Bool} {x y : Nat → α} (hf : ∀ t, f t = g t)
    (hx : ∀ t, x t = y t) (t : Nat) : transferred f x t = transferred g y t := by
  induction t with
  | zero => rfl
  | succ t ih => simp only [transferred, ih, hf, hx]

theorem accepted_eq (dw : Nat) (i : Nat → In) (t : Nat) :
    chainAccepted dw i t = accepted (To422.datapath dw) To422.latency (downIn dw i) t := by
  unfold chainAccepted accepted
  apply transferred_congr
  · intro u; rw [← down_eq]; rfl
  · intro u; rfl

theorem delivered_eq (dw : Nat) (i : Nat → In) (t : Nat) :
    chainDelivered dw i t = upDelivered (upIn dw i) t := by
  unfold chainDelivered upDelivered
  apply transferred_congr
  · intro u; rw [← up_eq]; rfl
  · intro u; rw [← up_eq]

theorem middle_eq (dw : Nat) (i : Nat → In) (t : Nat) :
    upAccepted (upIn dw i) t = delivered (To422.datapath dw) To422.latency (downIn dw i) t := by
  unfold upAccepted delivered
  apply transferred_congr
  · intro u; rw [← up_eq, ← down_eq]; rfl
  · intro u; rw [← down_eq]; rfl

end Chain
end Verif.Csc
