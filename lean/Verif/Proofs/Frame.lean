import Verif.Spec.Frame

/-!
# Lemmas on pixel packing
-/

namespace Verif.Frame

open Spec.Frame Spec.Stream

/-- The pixels of an incomplete last group. -/
def rest {α : Type} (n : Nat) (l : List α) : List α := l.drop (l.length / n * n)

theorem rest_length {α : Type} (n : Nat) (l : List α) : (rest n l).length = l.length % n := by
  rw [rest, List.length_drop]
  have := Nat.div_add_mod l.length n
  rw [Nat.mul_comm] at this
  omega

theorem snoc_div {m n : Nat} (hn : 0 < n) :
    (m % n + 1 = n → (m + 1) / n = m / n + 1 ∧ (m + 1) % n = 0) ∧
    (m % n + 1 ≠ n → (m + 1) / n = m / n ∧ (m + 1) % n = m % n + 1) := by
  have h := Nat.div_add_mod m n
  have hlt := Nat.mod_lt m hn
  constructor
  · intro e
    have e2 : m + 1 = n * (m / n + 1) := by rw [Nat.mul_add, Nat.mul_one]; omega
    rw [e2, Nat.mul_div_cancel_left _ hn, Nat.mul_mod_right]
    exact ⟨rfl, rfl⟩
  · intro e
    have e2 : m + 1 = (m % n + 1) + n * (m / n) := by omega
    constructor
    · rw [e2, Nat.add_mul_div_left _ _ hn, Nat.div_eq_of_lt (by omega), Nat.zero_add]
    · rw [e2, Nat.add_mul_mod_self_left, Nat.mod_eq_of_lt (by omega)]

theorem groups_snoc {α : Type} {n : Nat} (hn : 0 < n) (l : List α) (x : α) :
    groups n (l ++ [x]) = groups n l ++
      (if (rest n l).length + 1 = n then [rest n l ++ [x]] else []) ∧
    rest n (l ++ [x]) = (if (rest n l).length + 1 = n then [] else rest n l ++ [x]) := by
  have hlen : (l ++ [x]).length = l.length + 1 := by simp
  have hq : ∀ k, k < l.length / n →
      ((l ++ [x]).drop (k * n)).take n = (l.drop (k * n)).take n := by
    intro k hk
    have h1 : (k + 1) * n ≤ l.length / n * n := Nat.mul_le_mul_right n hk
    have h2 := Nat.div_mul_le_self l.length n
    rw [Nat.add_mul, Nat.one_mul] at h1
    rw [List.drop_append_of_le_length (by omega), List.take_append_of_le_length]
    rw [List.length_drop]; omega
  have hdrop : (l ++ [x]).drop (l.length / n * n) = rest n l ++ [x] := by
    rw [List.drop_append_of_le_length (Nat.div_mul_le_self _ _)]; rfl
  have hrl := rest_length n l
  obtain ⟨s1, s2⟩ := snoc_div (m := l.length) hn
  by_cases h : (rest n l).length + 1 = n
  · obtain ⟨h1, h2⟩ := s1 (by omega)
    rw [if_pos h, if_pos h]
    constructor
    · unfold groups
      rw [hlen, h1, List.range_succ, List.map_append]
      congr 1
      · apply List.map_congr_left
        intro k hk
        exact hq k (List.mem_range.1 hk)
      · simp only [List.map_cons, List.map_nil]
        rw [hdrop, List.take_of_length_le]
        simp; omega
    · have : (rest n (l ++ [x])).length = 0 := by rw [rest_length, hlen, h2]
      exact List.length_eq_zero_iff.1 this
  · obtain ⟨h1, h2⟩ := s2 (by omega)
    rw [if_neg h, if_neg h, List.append_nil]
    constructor
    · unfold groups
      rw [hlen, h1]
      apply List.map_congr_left
      intro k hk
      exact hq k (List.mem_range.1 hk)
    · unfold rest
      rw [hlen, h1]
      exact hdrop

theorem pickIn_succ {α : Type} (p : Nat → Bool) (x : Nat → α) (t n : Nat) :
    pickIn p x t (n + 1) = pickIn p x t n ++ (if p (t + n) then [x (t + n)] else []) := rfl

namespace Packer

variable {α : Type} {pf : Nat} {s0 : State α} {x : Nat → In α}

theorem counter_lt (hpf : 2 ≤ pf) (h0 : s0.pack_counter < pf) (t : Nat) :
    (trace (step pf) s0 x t).pack_counter < pf := by
  induction t with
  | zero => exact h0
  | succ t ih =>
    show (if _ then _ else _) < pf
    split
    · omega
    · split
      · have : counterRange pf = pf := if_neg (by omega)
        rw [this]; exact Nat.mod_lt _ (by omega)
      · exact ih

/-- A word is the group of pixels stored in its slots, read downwards. -/
theorem word_eq (s : State α) (l : List α) (hl : l.length = pf)
    (h : ∀ k, k < l.length → l[k]? = some (s.cur_word (pf - 1 - k))) : msFirst (word pf s) = l := by
  unfold msFirst word
  apply List.ext_getElem
  · simp [hl]
  · intro k h1 h2
    rw [List.getElem_reverse]
    simp only [List.length_map, List.length_range, List.getElem_map, List.getElem_range]
    have := h k h2
    rw [List.getElem?_eq_getElem h2, Option.some_inj] at this
    exact this.symm

/-- Words emitted and pixels seen after a frame start at clock `t`. -/
theorem frame_inv (hpf : 2 ≤ pf) (h0 : s0.pack_counter < pf) (t : Nat)
    (hnf : (x t).new_frame = true) (n : Nat)
    (hno : ∀ u, u < n → (x (t + 1 + u)).new_frame = false) :
    let s := trace (step pf) s0 x
    let px := pickIn (fun u => (x u).en) (fun u => (x u).px) (t + 1) n
    let em := pickIn (fun u => (s u).cur_word_valid) (fun u => msFirst (word pf (s u))) (t + 1) (n + 1)
    (s (t + 1 + n)).pack_counter = (rest pf px).length ∧
    (∀ k, k < (rest pf px).length →
      (rest pf px)[k]? = some ((s (t + 1 + n)).cur_word (pf - 1 - k))) ∧
    em = (if (s t).pack_counter + 1 = pf then [msFirst (word pf (s (t + 1)))] else []) ++
      groups pf px := by
  have hcr : counterRange pf = pf := if_neg (by omega)
  induction n with
  | zero =>
    refine ⟨?_, ?_, ?_⟩
    · show (if (x t).new_frame then 0 else _) = _
      rw [if_pos hnf]; simp [rest, pickIn]
    · intro k hk; exact absurd hk (by simp [rest, pickIn])
    · show [] ++ (if (if (x t).new_frame then decide ((trace (step pf) s0 x t).pack_counter + 1 = pf)
        else _) then _ else _) = _
      rw [if_pos hnf]
      simp [groups, pickIn]
  | succ n ih =>
    obtain ⟨h1, h2, h3⟩ := ih fun u hu => hno u (by omega)
    have hnf' := hno n (by omega)
    intro s px em
    have hpx : px = pickIn (fun u => (x u).en) (fun u => (x u).px) (t + 1) n ++
        (if (x (t + 1 + n)).en then [(x (t + 1 + n)).px] else []) := rfl
    have hem : em = pickIn (fun u => (s u).cur_word_valid) (fun u => msFirst (word pf (s u)))
        (t + 1) (n + 1) ++ (if (s (t + 1 + n + 1)).cur_word_valid then
          [msFirst (word pf (s (t + 1 + n + 1)))] else []) := rfl
    have hs : s (t + 1 + (n + 1)) = step pf (s (t + 1 + n)) (x (t + 1 + n)) := rfl
    have hs' : s (t + 1 + n + 1) = step pf (s (t + 1 + n)) (x (t + 1 + n)) := rfl
    rw [hem, h3, hs, hs']
    generalize hl : pickIn (fun u => (x u).en) (fun u => (x u).px) (t + 1) n = l at *
    have hlt := counter_lt hpf h0 (t + 1 + n) (x := x)
    change (s (t + 1 + n)).pack_counter < pf at hlt
    change (s (t + 1 + n)).pack_counter = _ at h1
    generalize hst : s (t + 1 + n) = st at *
    have h2' : ∀ k, k < (rest pf l).length → (rest pf l)[k]? = some (st.cur_word (pf - 1 - k)) := by
      intro k hk; rw [← hst]; exact h2 k hk
    clear h2 h3
    rw [hpx]
    cases hen : (x (t + 1 + n)).en
    · have e : (step pf st (x (t + 1 + n))).cur_word_valid = false := by
        simp [step, hnf', hen]
      rw [e]
      simp only [Bool.false_eq_true, if_false, List.append_nil]
      refine ⟨?_, ?_, rfl⟩
      · simp [step, hnf', hen, h1]
      · intro k hk
        rw [h2' k hk]
        simp [step, hnf', hen]
    · simp only [if_true]
      obtain ⟨g1, g2⟩ := groups_snoc (show 0 < pf by omega) l (x (t + 1 + n)).px
      have hcw : ∀ k, k < (rest pf l ++ [(x (t + 1 + n)).px]).length →
          (rest pf l ++ [(x (t + 1 + n)).px])[k]? =
            some ((step pf st (x (t + 1 + n))).cur_word (pf - 1 - k)) := by
        intro k hk
        have e : (step pf st (x (t + 1 + n))).cur_word (pf - 1 - k) =
            if pf - 1 - k < pf ∧ st.pack_counter + (pf - 1 - k) + 1 = pf then (x (t + 1 + n)).px
            else st.cur_word (pf - 1 - k) := by
          simp [step, hnf', hen]
        rw [e]
        simp only [List.length_append, List.length_cons, List.length_nil] at hk
        by_cases hkk : k < (rest pf l).length
        · rw [if_neg (by omega), List.getElem?_append_left hkk]
          exact h2' k hkk
        · rw [if_pos (by omega), List.getElem?_append_right (by omega),
            show k - (rest pf l).length = 0 by omega]
          rfl
      have hcv : (step pf st (x (t + 1 + n))).cur_word_valid = decide (st.pack_counter + 1 = pf) := by
        simp [step, hnf', hen]
      have hpc : (step pf st (x (t + 1 + n))).pack_counter = (st.pack_counter + 1) % pf := by
        simp [step, hnf', hen, hcr]
      rw [g1, g2, hcv, hpc]
      by_cases hfull : (rest pf l).length + 1 = pf
      · rw [if_pos hfull, if_pos hfull]
        refine ⟨?_, fun k hk => absurd hk (Nat.not_lt_zero k), ?_⟩
        · rw [h1, hfull, Nat.mod_self]; rfl
        · rw [decide_eq_true (by omega), if_pos rfl, List.append_assoc]
          congr 3
          apply word_eq
          · simp [hfull]
          · exact hcw
      · rw [if_neg hfull, if_neg hfull]
        refine ⟨?_, hcw, ?_⟩
        · rw [h1, Nat.mod_eq_of_lt (by omega)]; simp
        · rw [decide_eq_false (by omega)]; simp; rfl

/-- The start-of-frame bit is set until the first word has been emitted. -/
theorem sof_inv (t : Nat) (hnf : (x t).new_frame = true) (n : Nat)
    (hno : ∀ u, u < n → (x (t + 1 + u)).new_frame = false) :
    let s := trace (step pf) s0 x
    (s (t + 1 + n)).sof =
      (pickIn (fun u => (s u).cur_word_valid) (fun u => (s u).sof) (t + 1) n).isEmpty := by
  induction n with
  | zero =>
    show (if (x t).new_frame then true else _) = _
    rw [if_pos hnf]; rfl
  | succ n ih =>
    intro s
    have ih := ih fun u hu => hno u (by omega)
    show (if (x (t + 1 + n)).new_frame then true else if (s (t + 1 + n)).cur_word_valid then false
      else (s (t + 1 + n)).sof) = _
    rw [hno n (by omega), pickIn_succ]
    simp only [Bool.false_eq_true, if_false]
    cases (s (t + 1 + n)).cur_word_valid
    · simpa using ih
    · simp

theorem firstOnly_sof (t : Nat) (hnf : (x t).new_frame = true) (n : Nat)
    (hno : ∀ u, u < n → (x (t + 1 + u)).new_frame = false) :
    let s := trace (step pf) s0 x
    firstOnly (pickIn (fun u => (s u).cur_word_valid) (fun u => (s u).sof) (t + 1) (n + 1)) := by
  intro s
  induction n with
  | zero =>
    have h := sof_inv t hnf 0 (fun u hu => absurd hu (Nat.not_lt_zero u)) (pf := pf) (s0 := s0)
    simp only [pickIn_succ]
    change (s (t + 1 + 0)).sof = true at h
    rw [h]
    cases (s (t + 1 + 0)).cur_word_valid <;> simp [pickIn, firstOnly]
  | succ n ih =>
    have ih := ih fun u hu => hno u (by omega)
    have h := sof_inv t hnf (n + 1) hno (pf := pf) (s0 := s0)
    rw [pickIn_succ]
    change (s (t + 1 + (n + 1))).sof = _ at h
    rw [h]
    generalize hl : pickIn (fun u => (s u).cur_word_valid) (fun u => (s u).sof) (t + 1) (n + 1) = l
      at *
    cases (s (t + 1 + (n + 1))).cur_word_valid
    · simpa using ih
    · rw [if_pos rfl]
      cases l with
      | nil => exact ⟨rfl, by simp⟩
      | cons b l =>
        refine ⟨ih.1, fun y hy => ?_⟩
        rcases List.mem_append.1 hy with h | h
        · exact ih.2 y h
        · simpa using h

end Packer
/-! The packer inside the rgb extractor. -/
namespace Rgb

/-- What the packer is fed with. -/
def feed (pf : Nat) (x : Nat → In) (t : Nat) : Packer.In (BitVec 32) :=
  packerIn (trace (step pf) reset x t) (x t)

theorem packer_trace (pf : Nat) (x : Nat → In) (t : Nat) :
    (trace (step pf) reset x t).packer = trace (Packer.step pf) (Packer.reset 0) (feed pf x) t := by
  induction t with
  | zero => rfl
  | succ t ih =>
    show Packer.step pf (trace (step pf) reset x t).packer _ = _
    rw [ih]; rfl

theorem feed_new_frame (pf : Nat) (x : Nat → In) (t : Nat) :
    (feed pf x (t + 1)).new_frame = ((x (t + 1)).vsync && !(x t).vsync) := rfl

end Rgb

/-! Two halves of a list: every other element. -/

theorem everyOther_snoc {α : Type} (l : List α) (x : α) :
    everyOther (l ++ [x]) = everyOther l ++ (if l.length % 2 = 0 then [x] else []) := by
  induction l using everyOther.induct with
  | case1 => rfl
  | case2 a => rfl
  | case3 a b l ih =>
    show everyOther (a :: b :: (l ++ [x])) = _
    rw [everyOther, ih, everyOther]
    have e : (a :: b :: l).length % 2 = l.length % 2 := by simp only [List.length_cons]; omega
    simp only [e, List.cons_append]

namespace Packer

variable {α : Type} {s0 : State α} {x : Nat → In α}

/-- With one pixel per word every other pixel is emitted. -/
theorem single_inv (t : Nat) (hnf : (x t).new_frame = true) (n : Nat)
    (hno : ∀ u, u < n → (x (t + 1 + u)).new_frame = false) :
    let s := trace (step 1) s0 x
    let px := pickIn (fun u => (x u).en) (fun u => (x u).px) (t + 1) n
    let em := pickIn (fun u => (s u).cur_word_valid) (fun u => word 1 (s u)) (t + 1) (n + 1)
    (s (t + 1 + n)).pack_counter = px.length % 2 ∧
    em = (if (s t).pack_counter = 0 then [word 1 (s (t + 1))] else []) ++
      (everyOther px).map fun p => [p] := by
  induction n with
  | zero =>
    refine ⟨?_, ?_⟩
    · show (if (x t).new_frame then 0 else _) = _
      rw [if_pos hnf]; rfl
    · show [] ++ (if (if (x t).new_frame then decide ((trace (step 1) s0 x t).pack_counter + 1 = 1)
        else _) then _ else _) = _
      rw [if_pos hnf]
      simp [everyOther, pickIn]
  | succ n ih =>
    obtain ⟨h1, h3⟩ := ih fun u hu => hno u (by omega)
    have hnf' := hno n (by omega)
    intro s px em
    have hpx : px = pickIn (fun u => (x u).en) (fun u => (x u).px) (t + 1) n ++
        (if (x (t + 1 + n)).en then [(x (t + 1 + n)).px] else []) := rfl
    have hem : em = pickIn (fun u => (s u).cur_word_valid) (fun u => word 1 (s u))
        (t + 1) (n + 1) ++ (if (s (t + 1 + n + 1)).cur_word_valid then
          [word 1 (s (t + 1 + n + 1))] else []) := rfl
    have hs : s (t + 1 + (n + 1)) = step 1 (s (t + 1 + n)) (x (t + 1 + n)) := rfl
    have hs' : s (t + 1 + n + 1) = step 1 (s (t + 1 + n)) (x (t + 1 + n)) := rfl
    rw [hem, h3, hs, hs', hpx]
    change (s (t + 1 + n)).pack_counter = _ at h1
    generalize pickIn (fun u => (x u).en) (fun u => (x u).px) (t + 1) n = l at *
    generalize s (t + 1 + n) = st at *
    cases hen : (x (t + 1 + n)).en
    · simp [step, hnf', hen, h1, s]
    · simp only [if_true, everyOther_snoc, List.map_append, List.length_append, List.length_cons,
        List.length_nil]
      have hcv : (step 1 st (x (t + 1 + n))).cur_word_valid = decide (st.pack_counter + 1 = 1) := by
        simp [step, hnf', hen]
      have hpc : (step 1 st (x (t + 1 + n))).pack_counter = (st.pack_counter + 1) % 2 := by
        simp [step, hnf', hen, counterRange]
      have hw : st.pack_counter = 0 → word 1 (step 1 st (x (t + 1 + n))) = [(x (t + 1 + n)).px] := by
        intro h
        simp [word, step, hnf', hen, h]
      rw [hcv, hpc]
      refine ⟨by omega, ?_⟩
      by_cases hz : l.length % 2 = 0
      · rw [decide_eq_true (by omega), if_pos rfl, if_pos hz, hw (by omega), List.append_assoc]
        rfl
      · rw [decide_eq_false (by omega), if_neg hz]
        simp; rfl

end Packer

/-! Overflow flag. -/
namespace Overflow

/-- No reset is under way. -/
def Quiet (s : State) : Prop :=
  ∃ b a, s.rst = ⟨b, b, b, b⟩ ∧ s.ack = ⟨a, a, a, a⟩ ∧ s.overflow_mask = false

/-- A reset is under way: `c` pixel clock edges and then `d` system clock edges have passed. -/
def Stage (b a : Bool) (c d : Nat) (s : State) : Prop :=
  s.rst = ⟨b, if 1 ≤ c then b else !b, if 2 ≤ c then b else !b, if 3 ≤ c then b else !b⟩ ∧
  s.ack = ⟨if 3 ≤ c then !a else a, if 1 ≤ d then !a else a, if 2 ≤ d then !a else a,
    if 3 ≤ d then !a else a⟩ ∧ s.overflow_mask = !decide (3 ≤ d)

theorem stage_step (b a : Bool) (c d : Nat) (hc : c ≤ 3) (hd : d ≤ 3) (hcd : c < 3 → d = 0)
    (s : State) (x : In) (h : Stage b a c d s) (hre : (x.sysEdge && x.re) = false) :
    Stage b a (if x.pixEdge then min 3 (c + 1) else c)
      (if c = 3 then (if x.sysEdge then min 3 (d + 1) else d) else 0) (step s x) := by
  obtain ⟨h1, h2, h3⟩ := h
  unfold Stage step
  simp only [h1, h2, h3]
  have hcs : c = 0 ∨ c = 1 ∨ c = 2 ∨ c = 3 := by omega
  have hds : d = 0 ∨ d = 1 ∨ d = 2 ∨ d = 3 := by omega
  clear h1 h2 h3
  obtain ⟨pe, lo, se, re⟩ := x
  rcases hcs with rfl | rfl | rfl | rfl
  · obtain rfl := hcd (by omega)
    revert b a pe lo se re; decide
  · obtain rfl := hcd (by omega)
    revert b a pe lo se re; decide
  · obtain rfl := hcd (by omega)
    revert b a pe lo se re; decide
  · rcases hds with rfl | rfl | rfl | rfl <;> revert b a pe lo se re <;> decide

theorem stage_start (s : State) (x : In) (h : Quiet s) (h1 : x.sysEdge = true) (h2 : x.re = true) :
    ∃ b a, Stage b a 0 0 (step s x) := by
  obtain ⟨b, a, q1, q2, q3⟩ := h
  refine ⟨!b, a, ?_⟩
  unfold Stage step
  simp only [q1, q2, q3, h1, h2]
  clear q1 q2 q3
  cases x.pixEdge <;> revert b a <;> simp only [Pulse.o, Pulse.step] <;> decide

theorem stage_quiet (b a : Bool) (s : State) (h : Stage b a 3 3 s) : Quiet s :=
  ⟨b, !a, h.1, h.2.1, h.2.2⟩

theorem quiet_step (s : State) (x : In) (h : Quiet s) (hre : (x.sysEdge && x.re) = false) :
    Quiet (step s x) := by
  obtain ⟨b, a, q1, q2, q3⟩ := h
  refine ⟨b, a, ?_⟩
  unfold step
  simp only [q1, q2, q3]
  clear q1 q2 q3
  obtain ⟨pe, lo, se, re⟩ := x
  revert b a pe lo se re; decide

theorem quiet_o (s : State) (h : Quiet s) : s.rst.o = false := by
  obtain ⟨b, a, q1, -, -⟩ := h
  rw [q1]; cases b <;> rfl

/-- With enough edges a reset handshake completes. -/
theorem stage_run (s0 : State) (x : Nat → In) (t : Nat) (b a : Bool)
    (h0 : Stage b a 0 0 (trace step s0 x t))
    (m : Nat) (hre : ∀ u, u < m → ((x (t + u)).sysEdge && (x (t + u)).re) = false) :
    ∃ c d, c ≤ 3 ∧ d ≤ 3 ∧ (c < 3 → d = 0) ∧ Stage b a c d (trace step s0 x (t + m)) ∧
      min 3 (countIn (fun u => (x u).pixEdge) t m) ≤ c ∧
      ∀ n k, m = n + k → 3 ≤ countIn (fun u => (x u).pixEdge) t n →
        min 3 (countIn (fun u => (x u).sysEdge) (t + n) k) ≤ d := by
  induction m with
  | zero =>
    refine ⟨0, 0, by omega, by omega, fun _ => rfl, h0, by simp [countIn], ?_⟩
    intro n k h
    obtain ⟨rfl, rfl⟩ : n = 0 ∧ k = 0 := by omega
    simp [countIn]
  | succ m ih =>
    obtain ⟨c, d, hc, hd, hcd, hs, h1, h2⟩ := ih fun u hu => hre u (by omega)
    have hst := stage_step b a c d hc hd hcd _ (x (t + m)) hs (hre m (by omega))
    refine ⟨_, _, ?_, ?_, ?_, hst, ?_, ?_⟩
    · split <;> omega
    · split
      · split <;> omega
      · omega
    · intro h; split
      · rename_i h3; subst h3; split at h <;> omega
      · rfl
    · simp only [countIn]
      split <;> omega
    · intro n k hk h3
      cases k with
      | zero => simp [countIn]
      | succ k =>
        have hn : n + k = m := by omega
        have h2' := h2 n k hn.symm h3
        have hc3 : c = 3 := by
          have : countIn (fun u => (x u).pixEdge) t n ≤ countIn (fun u => (x u).pixEdge) t m := by
            rw [← hn]; clear hk h2' hn
            induction k with
            | zero => exact Nat.le_refl _
            | succ k ihk => rw [← Nat.add_assoc, countIn]; omega
          omega
        rw [if_pos hc3]
        simp only [countIn, Nat.add_assoc, hn]
        split <;> omega

end Overflow
end Verif.Frame
