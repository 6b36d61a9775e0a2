import Verif.Spec.Stream

/-! The elastic pipeline theorem. -/

namespace Verif.PipelinedActor

open Spec.Stream

variable {σ ι ο : Type}

section
variable (D : Datapath σ ι ο) (L : Nat) (i : Nat → In ι)

abbrev run : Nat → State σ := trace (step D) (reset D L) i

def ce (t : Nat) : Bool := pipeCe (run D L i t) (i t).ready

/-- Ghost copy of the pipeline: the payloads in flight, newest first. -/
def ghost : Nat → List (Option ι)
  | 0 => List.replicate L none
  | t + 1 =>
    if ce D L i t then ((if (i t).valid then some (i t).data else none) :: ghost t).dropLast
    else ghost t

theorem ghost_length (_hL : 1 ≤ L) (t : Nat) : (ghost D L i t).length = L := by
  induction t with
  | zero => simp [ghost]
  | succ t ih =>
    simp only [ghost]
    split
    · simp [List.length_dropLast, ih]
    · exact ih

theorem valid_eq_ghost (t : Nat) : (run D L i t).valid = (ghost D L i t).map Option.isSome := by
  induction t with
  | zero => simp [ghost, reset]
  | succ t ih =>
    show (step D (run D L i t) (i t)).valid = _
    simp only [ghost, step]
    by_cases h : ce D L i t = true
    · have h' : pipeCe (run D L i t) (i t).ready = true := h
      rw [if_pos h', if_pos h]
      simp only [ih]
      rw [List.map_dropLast]
      congr 1
      simp only [List.map_cons]
      congr 1
      cases (i t).valid <;> rfl
    · have h' : ¬ pipeCe (run D L i t) (i t).ready = true := h
      rw [if_neg h', if_neg h]; exact ih

/-- Whatever is fed next, entry `j` of the ghost pipeline comes out after `L-1-j` steps. -/
theorem ghost_outputs (f : ι → ο) (hL : 1 ≤ L) (hD : Computes D L f) (t : Nat) :
    ∀ j x, (ghost D L i t)[j]? = some (some x) → ∀ later : List ι, later.length + 1 + j = L →
      D.out (later.foldl D.step (run D L i t).dp) = f x := by
  induction t with
  | zero =>
    intro j x h
    simp [ghost, List.getElem?_replicate] at h
  | succ t ih =>
    intro j x h later hlen
    have hrun : run D L i (t+1) = step D (run D L i t) (i t) := rfl
    rw [hrun]
    simp only [ghost] at h
    by_cases hc : ce D L i t = true
    · have h' : pipeCe (run D L i t) (i t).ready = true := hc
      rw [if_pos hc] at h
      simp only [step, h', if_true]
      have hlt : j < (ghost D L i t).length := by rw [ghost_length D L i hL]; omega
      rw [List.getElem?_dropLast] at h
      simp only [List.length_cons, Nat.add_sub_cancel, hlt, if_true] at h
      cases j with
      | zero =>
        simp only [List.getElem?_cons_zero, Option.some.injEq] at h
        have hx : (i t).data = x := by
          cases hv : (i t).valid
          · rw [hv] at h; simp at h
          · rw [hv] at h; simpa using h
        rw [hx]
        exact hD _ x later (by omega)
      | succ j =>
        simp only [List.getElem?_cons_succ] at h
        have := ih j x h ((i t).data :: later) (by simp; omega)
        simpa using this
    · have h' : ¬ pipeCe (run D L i t) (i t).ready = true := hc
      rw [if_neg hc] at h
      simp only [step, h']
      exact ih j x h later hlen

/-- Input transfers and output transfers. -/
def inFire (t : Nat) : Bool := (i t).valid && ce D L i t
def outFire (t : Nat) : Bool := sourceValid (run D L i t) && (i t).ready

/-- Payloads in flight, oldest first. -/
def inflight (t : Nat) : List ι := (ghost D L i t).reverse.filterMap id

theorem getLastD_map_isSome (l : List (Option ι)) :
    (l.map Option.isSome).getLastD false = (l.getLastD none).isSome := by
  cases l with
  | nil => rfl
  | cons a l =>
    induction l generalizing a with
    | nil => rfl
    | cons b l ih => simpa using ih b

theorem sourceValid_eq (t : Nat) :
    sourceValid (run D L i t) = ((ghost D L i t).getLastD none).isSome := by
  unfold sourceValid
  rw [valid_eq_ghost, getLastD_map_isSome]

/-- What is delivered and what is in flight is what was accepted, if the oldest entry is what is at the
output. -/
theorem flow_of (f : ι → ο) (hL : 1 ≤ L)
    (hD : ∀ t x, (ghost D L i t)[L - 1]? = some (some x) → D.out (run D L i t).dp = f x) (t : Nat) :
    transferred (outFire D L i) (fun u => D.out (run D L i u).dp) t ++ (inflight D L i t).map f =
    (transferred (inFire D L i) (fun u => (i u).data) t).map f := by
  induction t with
  | zero =>
    simp [transferred, inflight, ghost]
  | succ t ih =>
    simp only [transferred, List.map_append]
    rw [← ih]
    have hlen := ghost_length D L i hL t
    -- split off the oldest entry
    obtain ⟨g, o, hg⟩ : ∃ g o, ghost D L i t = g ++ [o] := by
      refine ⟨(ghost D L i t).dropLast, (ghost D L i t).getLast (by
        intro h; rw [h] at hlen; simp at hlen; omega), ?_⟩
      rw [List.dropLast_concat_getLast]
    have hsv : sourceValid (run D L i t) = o.isSome := by
      rw [sourceValid_eq, hg]; simp
    have hinf : inflight D L i t = o.toList ++ g.reverse.filterMap id := by
      unfold inflight; rw [hg]; cases o <;> simp
    have hout : ∀ x, o = some x → D.out (run D L i t).dp = f x := by
      intro x hx
      have hgl : g.length = L - 1 := by
        have := hlen; rw [hg] at this; simp at this; omega
      exact hD t x (by rw [hg, List.getElem?_append_right (by omega)]; simp [hgl, hx])
    by_cases hc : ce D L i t = true
    · have hg' : ghost D L i (t+1) =
          (if (i t).valid then some (i t).data else none) :: g := by
        simp only [ghost, hc, if_true]
        rw [hg]; exact List.dropLast_concat (l₁ := _ :: g)
      have hin' : inflight D L i (t+1) = g.reverse.filterMap id ++
          (if (i t).valid then [(i t).data] else []) := by
        unfold inflight; rw [hg']
        cases (i t).valid <;> simp
      rw [hin', hinf]
      have hif : inFire D L i t = (i t).valid := by unfold inFire; rw [hc]; simp
      rw [hif]
      cases o with
      | none =>
        have : outFire D L i t = false := by unfold outFire; rw [hsv]; rfl
        rw [this]
        cases (i t).valid <;> simp
      | some x =>
        have hr : (i t).ready = true := by
          have h2 : pipeCe (run D L i t) (i t).ready = true := hc
          unfold pipeCe at h2; rw [hsv] at h2; simpa using h2
        have : outFire D L i t = true := by unfold outFire; rw [hsv, hr]; rfl
        rw [this, hout x rfl]
        cases (i t).valid <;> simp
    · have hg' : ghost D L i (t+1) = ghost D L i t := by simp only [ghost]; rw [if_neg hc]
      have hin' : inflight D L i (t+1) = inflight D L i t := by unfold inflight; rw [hg']
      have hif : inFire D L i t = false := by unfold inFire; simp [hc]
      have hnr : (i t).ready = false := by
        have h2 : ¬ pipeCe (run D L i t) (i t).ready = true := hc
        unfold pipeCe at h2; simp at h2; exact h2.1
      have : outFire D L i t = false := by unfold outFire; rw [hnr]; simp
      rw [this, hif, hin']; simp

theorem flow (f : ι → ο) (hL : 1 ≤ L) (hD : Computes D L f) (t : Nat) :
    transferred (outFire D L i) (fun u => D.out (run D L i u).dp) t ++ (inflight D L i t).map f =
    (transferred (inFire D L i) (fun u => (i u).data) t).map f :=
  flow_of D L i f hL (fun t x h => ghost_outputs D L i f hL hD t (L - 1) x h [] (by simp; omega)) t

/-- The newest entry was accepted at the last enabled clock. -/
theorem newest (hL : 1 ≤ L) (t : Nat) (x : ι) (h : (ghost D L i t)[0]? = some (some x)) :
    ∃ u, u < t ∧ (i u).valid = true ∧ ce D L i u = true ∧ (i u).data = x ∧
      ∀ v, u < v → v < t → ce D L i v = false := by
  induction t with
  | zero => simp [ghost, List.getElem?_replicate] at h
  | succ t ih =>
    simp only [ghost] at h
    cases hc : ce D L i t
    · rw [if_neg (by simp [hc])] at h
      obtain ⟨u, h1, h2, h3, h4, h5⟩ := ih h
      refine ⟨u, by omega, h2, h3, h4, fun v a b => ?_⟩
      rcases Nat.lt_or_ge v t with h | h
      · exact h5 v a h
      · rw [show v = t by omega]; exact hc
    · have hlt : 0 < (ghost D L i t).length := by rw [ghost_length D L i hL]; omega
      rw [if_pos hc, List.getElem?_dropLast] at h
      simp only [List.length_cons, Nat.add_sub_cancel, hlt, if_true, List.getElem?_cons_zero,
        Option.some.injEq] at h
      refine ⟨t, by omega, ?_, hc, ?_, fun v a b => by omega⟩
      · cases hv : (i t).valid
        · rw [hv] at h; simp at h
        · rfl
      · cases hv : (i t).valid
        · rw [hv] at h; simp at h
        · rw [hv] at h; simpa using h

/-- `ghost_outputs` for a datapath that needs its operands for two enabled clocks. -/
theorem ghost_outputs_held (f : ι → ο) (hL : 2 ≤ L) (hD : ComputesHeld D L f) (hh : Held D L i)
    (t : Nat) :
    ∀ j x, (ghost D L i t)[j]? = some (some x) → ∀ later : List ι, later.length + 1 + j = L →
      (j = 0 → later.head? = some x) → D.out (later.foldl D.step (run D L i t).dp) = f x := by
  have hL1 : 1 ≤ L := by omega
  induction t with
  | zero =>
    intro j x h
    simp [ghost, List.getElem?_replicate] at h
  | succ t ih =>
    intro j x h later hlen h0
    have hrun : run D L i (t+1) = step D (run D L i t) (i t) := rfl
    rw [hrun]
    simp only [ghost] at h
    by_cases hc : ce D L i t = true
    · have h' : pipeCe (run D L i t) (i t).ready = true := hc
      rw [if_pos hc] at h
      simp only [step, h', if_true]
      have hlt : j < (ghost D L i t).length := by rw [ghost_length D L i hL1]; omega
      rw [List.getElem?_dropLast] at h
      simp only [List.length_cons, Nat.add_sub_cancel, hlt, if_true] at h
      cases j with
      | zero =>
        simp only [List.getElem?_cons_zero, Option.some.injEq] at h
        have hx : (i t).data = x := by
          cases hv : (i t).valid
          · rw [hv] at h; simp at h
          · rw [hv] at h; simpa using h
        rw [hx]
        match later, h0 rfl, hlen with
        | y :: later, h1, hlen =>
          simp only [List.head?_cons, Option.some.injEq] at h1
          rw [h1]
          exact hD _ x later (by simp at hlen; omega)
      | succ j =>
        simp only [List.getElem?_cons_succ] at h
        have := ih j x h ((i t).data :: later) (by simp; omega) (by
          intro hj
          subst hj
          obtain ⟨u, h1, h2, h3, h4, h5⟩ := newest D L i hL1 t x h
          rw [List.head?_cons, hh u t h1 h2 h3 hc h5, h4])
        simpa using this
    · have h' : ¬ pipeCe (run D L i t) (i t).ready = true := hc
      rw [if_neg hc] at h
      simp only [step, h']
      exact ih j x h later hlen h0

theorem inflight_length (hL : 1 ≤ L) (t : Nat) : (inflight D L i t).length ≤ L := by
  unfold inflight
  refine Nat.le_trans (List.length_filterMap_le _ _) ?_
  simp [ghost_length D L i hL t]

/-- Items accepted before `t` and still in flight after `n` more clocks sit behind the
entries shifted in since. -/
theorem drain_aux (hL : 1 ≤ L) (t n : Nat) :
    (transferred (inFire D L i) (fun u => (i u).data) t).length ≤
    (transferred (outFire D L i) (fun u => D.out (run D L i u).dp) (t + n)).length +
      (((ghost D L i (t + n)).drop (countIn (ce D L i) t n)).filterMap id).length := by
  induction n with
  | zero =>
    -- counting version of `flow`
    simp only [countIn, List.drop_zero, Nat.add_zero]
    have : ∀ t, (transferred (inFire D L i) (fun u => (i u).data) t).length =
      (transferred (outFire D L i) (fun u => D.out (run D L i u).dp) t).length +
      ((ghost D L i t).filterMap id).length := by
      intro t
      induction t with
      | zero => simp [transferred, ghost]
      | succ t ih =>
        simp only [transferred, List.length_append]
        rw [ih]
        have hlen := ghost_length D L i hL t
        obtain ⟨g, o, hg⟩ : ∃ g o, ghost D L i t = g ++ [o] := by
          refine ⟨(ghost D L i t).dropLast, (ghost D L i t).getLast (by
            intro h; rw [h] at hlen; simp at hlen; omega), ?_⟩
          rw [List.dropLast_concat_getLast]
        have hsv : sourceValid (run D L i t) = o.isSome := by
          rw [sourceValid_eq, hg]; simp
        by_cases hc : ce D L i t = true
        · have hg' : ghost D L i (t+1) =
              (if (i t).valid then some (i t).data else none) :: g := by
            simp only [ghost, hc, if_true]
            rw [hg]; exact List.dropLast_concat (l₁ := _ :: g)
          have hif : inFire D L i t = (i t).valid := by unfold inFire; rw [hc]; simp
          rw [hg', hg, hif]
          cases o with
          | none =>
            have : outFire D L i t = false := by unfold outFire; rw [hsv]; rfl
            rw [this]
            cases (i t).valid <;> simp; omega
          | some x =>
            have hr : (i t).ready = true := by
              have h2 : pipeCe (run D L i t) (i t).ready = true := hc
              unfold pipeCe at h2; rw [hsv] at h2; simpa using h2
            have : outFire D L i t = true := by unfold outFire; rw [hsv, hr]; rfl
            rw [this]
            cases (i t).valid <;> simp <;> omega
        · have hg' : ghost D L i (t+1) = ghost D L i t := by simp only [ghost]; rw [if_neg hc]
          have hif : inFire D L i t = false := by unfold inFire; simp [hc]
          have hnr : (i t).ready = false := by
            have h2 : ¬ pipeCe (run D L i t) (i t).ready = true := hc
            unfold pipeCe at h2; simp at h2; exact h2.1
          have : outFire D L i t = false := by unfold outFire; rw [hnr]; simp
          rw [this, hif, hg']; simp
    exact Nat.le_of_eq (this t)
  | succ n ih =>
    refine Nat.le_trans ih ?_
    have e : t + (n + 1) = (t + n) + 1 := rfl
    rw [e]
    simp only [transferred, countIn, List.length_append]
    have hlen := ghost_length D L i hL (t + n)
    obtain ⟨g, o, hg⟩ : ∃ g o, ghost D L i (t + n) = g ++ [o] := by
      refine ⟨(ghost D L i (t + n)).dropLast, (ghost D L i (t + n)).getLast (by
        intro h; rw [h] at hlen; simp at hlen; omega), ?_⟩
      rw [List.dropLast_concat_getLast]
    have hsv : sourceValid (run D L i (t + n)) = o.isSome := by
      rw [sourceValid_eq, hg]; simp
    by_cases hc : ce D L i (t + n) = true
    · have hg' : ghost D L i (t + n + 1) =
          (if (i (t + n)).valid then some (i (t + n)).data else none) :: g := by
        simp only [ghost, hc, if_true]
        rw [hg]; exact List.dropLast_concat (l₁ := _ :: g)
      rw [hc, hg', hg]
      simp only [if_true, List.drop_succ_cons]
      have hd : ((g ++ [o]).drop (countIn (ce D L i) t n)).filterMap id =
          (g.drop (countIn (ce D L i) t n)).filterMap id ++
          (([o] : List (Option ι)).drop (countIn (ce D L i) t n - g.length)).filterMap id := by
        rw [List.drop_append, List.filterMap_append]
      rw [hd, List.length_append]
      have hle : ((([o] : List (Option ι)).drop (countIn (ce D L i) t n - g.length)).filterMap
          id).length ≤ (if outFire D L i (t + n) then
            [D.out (run D L i (t + n)).dp] else []).length := by
        cases o with
        | none =>
          generalize countIn (ce D L i) t n - g.length = m
          cases m <;> simp
        | some x =>
          have hr : (i (t + n)).ready = true := by
            have h2 : pipeCe (run D L i (t + n)) (i (t + n)).ready = true := hc
            unfold pipeCe at h2; rw [hsv] at h2; simpa using h2
          have : outFire D L i (t + n) = true := by unfold outFire; rw [hsv, hr]; rfl
          rw [this]
          generalize countIn (ce D L i) t n - g.length = m
          cases m <;> simp
      omega
    · have hg' : ghost D L i (t + n + 1) = ghost D L i (t + n) := by
        simp only [ghost]; rw [if_neg hc]
      rw [hg', if_neg hc, Nat.add_zero]
      omega

theorem countIn_mono (p q : Nat → Bool) (h : ∀ t, p t = true → q t = true) (t n : Nat) :
    countIn p t n ≤ countIn q t n := by
  induction n with
  | zero => exact Nat.le_refl _
  | succ n ih =>
    simp only [countIn]
    cases hp : p (t + n)
    · simp; omega
    · simp [h _ hp]; omega

theorem drain (hL : 1 ≤ L) (t n : Nat) (h : L ≤ countIn (fun u => (i u).ready) t n) :
    (transferred (inFire D L i) (fun u => (i u).data) t).length ≤
    (transferred (outFire D L i) (fun u => D.out (run D L i u).dp) (t + n)).length := by
  have h1 := drain_aux D L i hL t n
  have h2 : countIn (fun u => (i u).ready) t n ≤ countIn (ce D L i) t n := by
    apply countIn_mono
    intro u hu
    unfold ce pipeCe
    rw [hu]; rfl
  rw [List.drop_eq_nil_of_le (by rw [ghost_length D L i hL]; omega)] at h1
  simpa using h1

theorem stable (t : Nat) (h1 : sourceValid (run D L i t) = true) (h2 : (i t).ready = false) :
    run D L i (t + 1) = run D L i t := by
  show step D (run D L i t) (i t) = _
  unfold step pipeCe
  rw [h1, h2]; rfl

end

end Verif.PipelinedActor
