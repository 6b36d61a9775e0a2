import Verif.Model.BusSync
import Verif.Spec.Stream

/-!
# Invariant of the bus synchroniser

One pulse circulates.  `out k` says how far it is on its way out, `arrived` that it has come out and is
about to be sent back, `back k` how far it is on its way back.
-/

namespace Verif.BusSync

open Spec.Stream

/-- Age of a pulse: 0 just launched, 3 at rest. -/
def At (p : Pulse) (k : Nat) : Prop :=
  p.m0 = (if k = 0 then !p.toggle else p.toggle) ∧ p.m1 = (if k ≤ 1 then !p.toggle else p.toggle) ∧
    p.last = (if k ≤ 2 then !p.toggle else p.toggle)

theorem at_o {p : Pulse} {k : Nat} (h : At p k) : p.o = decide (k = 2) := by
  obtain ⟨-, h1, h2⟩ := h
  rw [Pulse.o, h1, h2]
  rcases (by omega : k ≤ 1 ∨ k = 2 ∨ 3 ≤ k) with h | h | h
  · rw [if_pos h, if_pos (by omega), decide_eq_false (by omega)]; cases p.toggle <;> rfl
  · rw [if_neg (by omega), if_pos (by omega), decide_eq_true h]; cases p.toggle <;> rfl
  · rw [if_neg (by omega), if_neg (by omega), decide_eq_false (by omega)]; cases p.toggle <;> rfl

/-- A pulse on its way moves on at every edge of the target clock. -/
theorem at_move {p : Pulse} {k : Nat} (h : At p k) (src i dst early : Bool)
    (hi : (src && i) = false) : At (p.step src i dst early) (if dst then k + 1 else k) := by
  obtain ⟨h0, h1, h2⟩ := h
  cases dst
  · simp only [At, Pulse.step, hi, Bool.false_eq_true, if_false]
    exact ⟨h0, h1, h2⟩
  · simp only [At, Pulse.step, hi, Bool.false_eq_true, if_false, if_true, ite_self]
    refine ⟨by rw [if_neg (by omega)], ?_, ?_⟩
    · rw [h0]
      by_cases hk : k = 0
      · rw [if_pos hk, if_pos (by omega)]
      · rw [if_neg hk, if_neg (by omega)]
    · rw [h1]
      by_cases hk : k ≤ 1
      · rw [if_pos hk, if_pos (by omega)]
      · rw [if_neg hk, if_neg (by omega)]

theorem at_rest {p : Pulse} {k : Nat} (hk : 3 ≤ k) (h : At p k) : At p 3 := by
  obtain ⟨h0, h1, h2⟩ := h
  rw [if_neg (by omega)] at h0
  rw [if_neg (by omega)] at h1 h2
  exact ⟨h0, h1, h2⟩

theorem rest_stays {p : Pulse} (h : At p 3) (src i dst early : Bool) (hi : (src && i) = false) :
    At (p.step src i dst early) 3 :=
  at_rest (by split <;> omega) (at_move h src i dst early hi)

/-- A pulse is launched; an edge of the target clock at the same instant may catch it. -/
theorem at_launch {p : Pulse} {k : Nat} (hk : 2 ≤ k) (h : At p k) (dst early : Bool)
    (hd : k = 2 → dst = true) :
    At (p.step true true dst early) (if dst && early then 1 else 0) := by
  obtain ⟨h0, h1, h2⟩ := h
  rw [if_neg (by omega)] at h0 h1
  cases dst
  · have hk3 : ¬ k ≤ 2 := by
      intro hh; exact absurd (hd (by omega)) (by decide)
    rw [if_neg hk3] at h2
    simp [At, Pulse.step, h0, h1, h2]
  · cases early <;> simp [At, Pulse.step, h0, h1]

/-- Edges of the input clock since the latest edge of the output clock before instant `t`. -/
def since (x : Nat → In) : Nat → Nat
  | 0 => 0
  | t + 1 => if (x t).oEdge then 0 else since x t + if (x t).iEdge then 1 else 0

/-- Where the pulse is; `V` is the word held, `r` the number of edges since the latest edge of the output
clock. -/
inductive Phase (s : State) (V : BitVec 5) (r : Nat) : Prop
  | start (h0 : s.starter = true) (hp : At s.ping 3) (hd : s.ping_o = false) (hq : At s.pong 3)
      (hc : s.count = 128) (ho : s.o = 0) (hV : V = 0)
  | out (k : Nat) (hk : k ≤ 2) (h0 : s.starter = false) (hp : At s.ping k) (hd : s.ping_o = false)
      (hq : At s.pong 3) (hc : 128 ≤ s.count + (30 * k + r)) (hm : k = 2 → s.m0 = V)
  | arrived (h0 : s.starter = false) (hp : At s.ping 3) (hd : s.ping_o = true)
      (hq : At s.pong 3) (hc : 128 ≤ s.count + (90 + r)) (hm : s.obuffer = V)
  | back (k : Nat) (hk : k ≤ 2) (h0 : s.starter = false) (hp : At s.ping 3) (hd : s.ping_o = false)
      (hq : At s.pong k) (hc : 128 ≤ s.count + (120 + k)) (ho : s.o = V)

/-- The word held after one instant. -/
def heldNext (s : State) (x : In) : BitVec 5 := if x.iEdge && s.pong.o then x.i else s.ibuffer

theorem mix (a : BitVec 5) (e : BitVec 5) : (a &&& e) ||| (a &&& ~~~e) = a := by
  revert a e
  decide +kernel

/-- The pulse circulates: one instant. -/
theorem phase_step (s : State) (x : In) (r : Nat) (hr : r < 30)
    (h : Phase s s.ibuffer r) :
    Phase (step s x) (heldNext s x) (if x.oEdge then 0 else r + if x.iEdge then 1 else 0) := by
  rcases h with ⟨h0, hp, hd, hq, hc, ho, hV⟩ | ⟨k, hk, h0, hp, hd, hq, hc, hm⟩ |
    ⟨h0, hp, hd, hq, hc, hm⟩ | ⟨k, hk, h0, hp, hd, hq, hc, ho⟩
  · -- before the start
    have hpo : s.ping.o = false := by rw [at_o hp]; rfl
    have hqo : s.pong.o = false := by rw [at_o hq]; rfl
    have hpi : pingI s = true := by rw [pingI, h0]; rfl
    have hh : heldNext s x = s.ibuffer := by rw [heldNext, hqo, Bool.and_false]; rfl
    have hq' : At (step s x).pong 3 := rest_stays hq _ _ _ _ (by rw [hd, Bool.and_false])
    have hd' : (step s x).ping_o = false := by
      show (if x.oEdge then s.ping.o else s.ping_o) = false
      rw [hpo, hd, ite_self]
    have ho' : (step s x).o = 0 := by
      show (if x.oEdge && s.ping_o then s.obuffer else s.o) = 0
      rw [hd, Bool.and_false, ho]; rfl
    rw [hh]
    by_cases hi : x.iEdge = true
    · have hp' : At (step s x).ping (if x.oEdge && x.pingEarly then 1 else 0) := by
        show At (s.ping.step x.iEdge (pingI s) x.oEdge x.pingEarly) _
        rw [hi, hpi]
        exact at_launch (by omega) hp _ _ (by omega)
      have hc' : (step s x).count = 128 := by
        show (if x.iEdge then (if pingI s then 128 else _) else _) = _
        rw [hi, hpi]; rfl
      refine .out _ ?_ ?_ hp' hd' hq' ?_ ?_
      · split <;> omega
      · show (if x.iEdge then false else s.starter) = false
        rw [hi]; rfl
      · rw [hc']; omega
      · intro h; revert h; split <;> omega
    · have hi : x.iEdge = false := by simpa using hi
      have hp' : At (step s x).ping 3 := rest_stays hp _ _ _ _ (by rw [hi]; rfl)
      refine .start ?_ hp' hd' hq' ?_ ho' hV
      · show (if x.iEdge then false else s.starter) = true
        rw [hi]; exact h0
      · show (if x.iEdge then _ else s.count) = 128
        rw [hi]; exact hc
  · -- on the way out
    have hqo : s.pong.o = false := by rw [at_o hq]; rfl
    have hcn : (s.count == 0) = false := by rw [beq_eq_false_iff_ne]; omega
    have hpi : pingI s = false := by rw [pingI, h0, hqo, hcn]; rfl
    have hh : heldNext s x = s.ibuffer := by rw [heldNext, hqo, Bool.and_false]; rfl
    have hq' : At (step s x).pong 3 := rest_stays hq _ _ _ _ (by rw [hd, Bool.and_false])
    have h0' : (step s x).starter = false := by
      show (if x.iEdge then false else s.starter) = false
      rw [h0, ite_self]
    have hp' : At (step s x).ping (if x.oEdge then k + 1 else k) :=
      at_move hp _ _ _ _ (by rw [hpi, Bool.and_false])
    have hc' : (step s x).count + (if x.iEdge then 1 else 0) = s.count := by
      show (if x.iEdge then (if pingI s then 128 else if s.count == 0 then s.count else s.count - 1)
        else s.count) + _ = _
      rw [hpi, hcn]
      have : s.count ≠ 0 := by simpa using hcn
      cases x.iEdge <;> simp <;> omega
    have hc1 : s.count ≤ (step s x).count + 1 := by
      rw [← hc']; split <;> omega
    rw [hh]
    by_cases hoe : x.oEdge = true
    · rw [if_pos hoe]
      rw [if_pos hoe] at hp'
      have hd' : (step s x).ping_o = decide (k = 2) := by
        show (if x.oEdge then s.ping.o else s.ping_o) = _
        rw [if_pos hoe, at_o hp]
      have hm0 : (step s x).m0 = s.ibuffer := by
        show (if x.oEdge then (heldNext s x &&& x.early) ||| (s.ibuffer &&& ~~~x.early) else _) = _
        rw [if_pos hoe, hh, mix]
      by_cases h2 : k = 2
      · refine .arrived h0' (at_rest (by omega) hp') (by rw [hd', decide_eq_true h2]) hq' (by omega) ?_
        show (if x.oEdge then s.m0 else s.obuffer) = _
        rw [if_pos hoe, hm h2]
      · exact .out (k + 1) (by omega) h0' hp' (by rw [hd', decide_eq_false h2]) hq' (by omega)
          fun _ => hm0
    · rw [if_neg hoe] at hp' ⊢
      refine .out k hk h0' hp' ?_ hq' ?_ ?_
      · show (if x.oEdge then s.ping.o else s.ping_o) = _
        rw [if_neg hoe, hd]
      · omega
      · intro h2
        show (if x.oEdge then _ else s.m0) = _
        rw [if_neg hoe, hm h2]
  · -- arrived
    have hpo : s.ping.o = false := by rw [at_o hp]; rfl
    have hqo : s.pong.o = false := by rw [at_o hq]; rfl
    have hcn : (s.count == 0) = false := by rw [beq_eq_false_iff_ne]; omega
    have hpi : pingI s = false := by rw [pingI, h0, hqo, hcn]; rfl
    have hh : heldNext s x = s.ibuffer := by rw [heldNext, hqo, Bool.and_false]; rfl
    have h0' : (step s x).starter = false := by
      show (if x.iEdge then false else s.starter) = false
      rw [h0, ite_self]
    have hp' : At (step s x).ping 3 := rest_stays hp _ _ _ _ (by rw [hpi, Bool.and_false])
    have hc' : (step s x).count + (if x.iEdge then 1 else 0) = s.count := by
      show (if x.iEdge then (if pingI s then 128 else if s.count == 0 then s.count else s.count - 1)
        else s.count) + _ = _
      rw [hpi, hcn]
      have : s.count ≠ 0 := by simpa using hcn
      cases x.iEdge <;> simp <;> omega
    have hc1 : s.count ≤ (step s x).count + 1 := by
      rw [← hc']; split <;> omega
    rw [hh]
    by_cases hoe : x.oEdge = true
    · have hq' : At (step s x).pong (if x.iEdge && x.pongEarly then 1 else 0) := by
        show At (s.pong.step x.oEdge s.ping_o x.iEdge x.pongEarly) _
        rw [hoe, hd]
        exact at_launch (by omega) hq _ _ (by omega)
      refine .back _ ?_ h0' hp' ?_ hq' ?_ ?_
      · split <;> omega
      · show (if x.oEdge then s.ping.o else s.ping_o) = _
        rw [if_pos hoe, hpo]
      · omega
      · show (if x.oEdge && s.ping_o then s.obuffer else s.o) = _
        rw [hoe, hd]; exact hm
    · rw [if_neg hoe]
      refine .arrived h0' hp' ?_ ?_ ?_ ?_
      · show (if x.oEdge then s.ping.o else s.ping_o) = _
        rw [if_neg hoe, hd]
      · exact rest_stays hq _ _ _ _ (by simp [hoe])
      · omega
      · show (if x.oEdge then s.m0 else s.obuffer) = _
        rw [if_neg hoe, hm]
  · -- on the way back
    have hpo : s.ping.o = false := by rw [at_o hp]; rfl
    have hqo : s.pong.o = decide (k = 2) := at_o hq
    have hcn : (s.count == 0) = false := by rw [beq_eq_false_iff_ne]; omega
    have h0' : (step s x).starter = false := by
      show (if x.iEdge then false else s.starter) = false
      rw [h0, ite_self]
    have hd' : (step s x).ping_o = false := by
      show (if x.oEdge then s.ping.o else s.ping_o) = false
      rw [hpo, hd, ite_self]
    have hq' : At (step s x).pong (if x.iEdge then k + 1 else k) :=
      at_move hq _ _ _ _ (by rw [hd, Bool.and_false])
    have ho' : (step s x).o = s.o := by
      show (if x.oEdge && s.ping_o then s.obuffer else s.o) = s.o
      rw [hd, Bool.and_false]; rfl
    by_cases hi : x.iEdge = true
    · rw [if_pos hi] at hq'
      by_cases h2 : k = 2
      · have hpi : pingI s = true := by rw [pingI, hqo, decide_eq_true h2, Bool.or_true]; rfl
        have hp' : At (step s x).ping (if x.oEdge && x.pingEarly then 1 else 0) := by
          show At (s.ping.step x.iEdge (pingI s) x.oEdge x.pingEarly) _
          rw [hi, hpi]
          exact at_launch (by omega) hp _ _ (by omega)
        have hc' : (step s x).count = 128 := by
          show (if x.iEdge then (if pingI s then 128 else _) else _) = _
          rw [hi, hpi]; rfl
        refine .out _ ?_ h0' hp' hd' (at_rest (by omega) hq') ?_ ?_
        · split <;> omega
        · rw [hc']; omega
        · intro h; revert h; split <;> omega
      · have hpi : pingI s = false := by rw [pingI, h0, hqo, decide_eq_false h2, hcn]; rfl
        have hp' : At (step s x).ping 3 := rest_stays hp _ _ _ _ (by rw [hpi, Bool.and_false])
        have hh : heldNext s x = s.ibuffer := by
          rw [heldNext, hqo, decide_eq_false h2, Bool.and_false]; rfl
        have hc' : (step s x).count + 1 = s.count := by
          show (if x.iEdge then (if pingI s then 128 else if s.count == 0 then s.count
            else s.count - 1) else s.count) + _ = _
          rw [hpi, hcn, hi]
          have : s.count ≠ 0 := by simpa using hcn
          simp; omega
        rw [hh]
        exact .back (k + 1) (by omega) h0' hp' hd' hq' (by omega) (by rw [ho', ho])
    · have hi : x.iEdge = false := by simpa using hi
      rw [hi] at hq'
      have hh : heldNext s x = s.ibuffer := by rw [heldNext, hi]; rfl
      have hp' : At (step s x).ping 3 := rest_stays hp _ _ _ _ (by rw [hi]; rfl)
      have hc' : (step s x).count = s.count := by
        show (if x.iEdge then _ else s.count) = _
        rw [hi]; rfl
      rw [hh]
      exact .back k hk h0' hp' hd' hq' (by omega) (by rw [ho', ho])

/-! ### Runs -/

section

variable (x : Nat → In) (hr : ∀ t, since x t < 30)
include hr

theorem phase_all (t : Nat) :
    Phase (trace step reset x t) (trace step reset x t).ibuffer (since x t) := by
  induction t with
  | zero => exact .start rfl ⟨rfl, rfl, rfl⟩ rfl ⟨rfl, rfl, rfl⟩ rfl rfl rfl
  | succ t ih =>
    rw [trace_succ]
    exact phase_step _ (x t) _ (hr t) ih

/-- What is taken over is the word held. -/
theorem taken (t : Nat) : (trace step reset x (t + 1)).o = (trace step reset x t).o ∨
    (trace step reset x (t + 1)).o = (trace step reset x t).ibuffer := by
  have h := phase_all x hr t
  rw [trace_succ]
  generalize trace step reset x t = s at h ⊢
  show (if (x t).oEdge && s.ping_o then s.obuffer else s.o) = s.o ∨
    (if (x t).oEdge && s.ping_o then s.obuffer else s.o) = s.ibuffer
  rcases h with ⟨_, _, hd, _, _, _, _⟩ | ⟨_, _, _, _, hd, _, _, _⟩ | ⟨_, _, _, _, _, hm⟩ |
    ⟨_, _, _, _, hd, _, _, _⟩
  · left; rw [hd, Bool.and_false]; rfl
  · left; rw [hd, Bool.and_false]; rfl
  · by_cases h : ((x t).oEdge && s.ping_o) = true
    · right; rw [if_pos h, hm]
    · left; rw [if_neg h]
  · left; rw [hd, Bool.and_false]; rfl

/-- The output is 0 or an input word of an earlier edge of the input clock. -/
theorem seen_word (t : Nat) :
    ((trace step reset x t).ibuffer = 0 ∨
      ∃ u, u < t ∧ (x u).iEdge = true ∧ (trace step reset x t).ibuffer = (x u).i) ∧
    ((trace step reset x t).o = 0 ∨
      ∃ u, u < t ∧ (x u).iEdge = true ∧ (trace step reset x t).o = (x u).i) := by
  induction t with
  | zero => exact ⟨Or.inl rfl, Or.inl rfl⟩
  | succ t ih =>
    obtain ⟨ih1, ih2⟩ := ih
    constructor
    · show (if (x t).iEdge && (trace step reset x t).pong.o then (x t).i
          else (trace step reset x t).ibuffer) = 0 ∨ ∃ u, u < t + 1 ∧ (x u).iEdge = true ∧
        (if (x t).iEdge && (trace step reset x t).pong.o then (x t).i
          else (trace step reset x t).ibuffer) = (x u).i
      by_cases h : ((x t).iEdge && (trace step reset x t).pong.o) = true
      · rw [if_pos h]
        rw [Bool.and_eq_true] at h
        exact Or.inr ⟨t, by omega, h.1, rfl⟩
      · rw [if_neg h]
        rcases ih1 with h | ⟨u, h1, h2⟩
        · exact Or.inl h
        · exact Or.inr ⟨u, by omega, h2⟩
    · rcases taken x hr t with h | h <;> rw [h]
      · rcases ih2 with h | ⟨u, h1, h2⟩
        · exact Or.inl h
        · exact Or.inr ⟨u, by omega, h2⟩
      · rcases ih1 with h | ⟨u, h1, h2⟩
        · exact Or.inl h
        · exact Or.inr ⟨u, by omega, h2⟩

/-- An input word that stays for 371 edges of the input clock arrives. -/
theorem arrives (v : BitVec 5) (a n : Nat) (hv : ∀ u, a ≤ u → u < a + n → (x u).i = v) :
    let s := trace step reset x (a + n)
    let e := countIn (fun u => (x u).iEdge) a n
    (e + s.count ≤ 252 ∧ (s.starter = true → e = 0)) ∨
    (s.starter = false ∧ s.ibuffer = v ∧ e + s.count ≤ 376) ∨
    (s.starter = false ∧ s.ibuffer = v ∧ s.o = v) := by
  induction n with
  | zero =>
    left
    refine ⟨?_, fun _ => rfl⟩
    show 0 + (trace step reset x a).count ≤ 252
    have key : ∀ t, (trace step reset x t).count ≤ 128 := by
      intro t
      induction t with
      | zero => exact Nat.le_refl _
      | succ t ih =>
        rw [trace_succ]
        generalize trace step reset x t = s at ih ⊢
        show (if (x t).iEdge then (if pingI s then 128 else if s.count == 0 then s.count
          else s.count - 1) else s.count) ≤ 128
        repeat' split
        all_goals omega
    have := key a
    omega
  | succ n ih =>
    have ih := ih fun u h1 h2 => hv u h1 (by omega)
    have hph := phase_all x hr (a + n)
    have hin := hv (a + n) (by omega) (by omega)
    have hrn := hr (a + n)
    have htk := taken x hr (a + n)
    intro s e
    have he : e = countIn (fun u => (x u).iEdge) a n + if (x (a + n)).iEdge then 1 else 0 := rfl
    have hs : s = step (trace step reset x (a + n)) (x (a + n)) := rfl
    have htk : s.o = (trace step reset x (a + n)).o ∨ s.o = (trace step reset x (a + n)).ibuffer := htk
    generalize trace step reset x (a + n) = q at ih hph htk hs
    generalize countIn (fun u => (x u).iEdge) a n = c at ih he
    generalize since x (a + n) = r at hph hrn
    generalize x (a + n) = y at hin hs he
    clear_value s e
    subst hs
    have hst : (step q y).starter = if y.iEdge then false else q.starter := rfl
    have hib : (step q y).ibuffer = if y.iEdge && q.pong.o then y.i else q.ibuffer := rfl
    have hct : (step q y).count = if y.iEdge then
        (if pingI q then 128 else if q.count == 0 then q.count else q.count - 1) else q.count := rfl
    by_cases hi : y.iEdge = true
    · rw [if_pos hi] at hst hct he
      rw [hi, Bool.true_and] at hib
      by_cases hpo : q.pong.o = true
      · -- the pulse is back
        have hpi : pingI q = true := by rw [pingI, hpo, Bool.or_true]; rfl
        rw [if_pos hpo] at hib
        rw [if_pos hpi] at hct
        have hb : 6 ≤ q.count ∧ q.starter = false ∧ q.o = q.ibuffer := by
          rcases hph with ⟨_, _, _, hq, _, _, _⟩ | ⟨_, _, _, _, _, hq, _, _⟩ | ⟨_, _, _, hq, _, _⟩ |
            ⟨k, hk, h0, _, _, hq, hc, ho⟩
          · rw [at_o hq] at hpo; exact absurd hpo (by decide)
          · rw [at_o hq] at hpo; exact absurd hpo (by decide)
          · rw [at_o hq] at hpo; exact absurd hpo (by decide)
          · exact ⟨by omega, h0, ho⟩
        rcases ih with ⟨h1, h2⟩ | ⟨h1, h2, h3⟩ | ⟨h1, h2, h3⟩
        · right; left
          exact ⟨hst, by rw [hib, hin], by omega⟩
        · right; right
          refine ⟨hst, by rw [hib, hin], ?_⟩
          rcases htk with h | h <;> rw [h]
          · rw [hb.2.2, h2]
          · exact h2
        · right; right
          refine ⟨hst, by rw [hib, hin], ?_⟩
          rcases htk with h | h <;> rw [h] <;> assumption
      · rw [if_neg hpo] at hib
        have hsum : (q.starter = true ∧ (step q y).count = 128) ∨
            (step q y).count + 1 = q.count := by
          by_cases h0 : q.starter = true
          · left
            have hpi : pingI q = true := by rw [pingI, h0]; rfl
            rw [if_pos hpi] at hct
            exact ⟨h0, hct⟩
          · right
            have hne : q.count ≠ 0 := by
              rcases hph with ⟨h, _, _, hq, _, _, _⟩ | ⟨_, _, _, _, _, hq, _, _⟩ |
                ⟨_, _, _, hq, _, _⟩ | ⟨k, hk, _, _, _, hq, hc, ho⟩
              · exact absurd h h0
              all_goals omega
            have hpi : pingI q = false := by
              simp only [pingI, Bool.or_eq_false_iff, beq_eq_false_iff_ne]
              exact ⟨⟨by simpa using h0, by simpa using hpo⟩, hne⟩
            rw [hct, hpi]
            simp [hne]
            omega
        rcases ih with ⟨h1, h2⟩ | ⟨h1, h2, h3⟩ | ⟨h1, h2, h3⟩
        · left
          refine ⟨?_, by rw [hst]; simp⟩
          rcases hsum with ⟨h4, h5⟩ | h4
          · have := h2 h4; omega
          · omega
        · right; left
          refine ⟨hst, by rw [hib, h2], ?_⟩
          rcases hsum with ⟨h4, h5⟩ | h4
          · rw [h1] at h4; cases h4
          · omega
        · right; right
          refine ⟨hst, by rw [hib, h2], ?_⟩
          rcases htk with h | h <;> rw [h] <;> assumption
    · rw [if_neg hi] at hst hct he
      have hi : y.iEdge = false := by simpa using hi
      rw [hi, Bool.false_and] at hib
      have hib : (step q y).ibuffer = q.ibuffer := hib
      rw [hst, hct, hib, he, Nat.add_zero]
      rcases ih with h | h | ⟨h1, h2, h3⟩
      · exact Or.inl h
      · exact Or.inr (Or.inl h)
      · right; right
        refine ⟨h1, h2, ?_⟩
        rcases htk with h | h <;> rw [h] <;> assumption

theorem stable_word (v : BitVec 5) (a n : Nat) (hv : ∀ u, a ≤ u → u < a + n → (x u).i = v)
    (hn : 371 ≤ countIn (fun u => (x u).iEdge) a n) : (trace step reset x (a + n)).o = v := by
  have hph := phase_all x hr (a + n)
  have hrn := hr (a + n)
  rcases arrives x hr v a n hv with ⟨h1, h2⟩ | ⟨h1, h2, h3⟩ | ⟨h1, h2, h3⟩
  · omega
  · rcases hph with ⟨h, _, _, hq, _, _, _⟩ | ⟨_, _, _, _, _, hq, _, _⟩ |
      ⟨_, _, _, hq, _, _⟩ | ⟨k, hk, _, _, _, hq, hc, ho⟩
    · rw [h1] at h; cases h
    all_goals omega
  · exact h3

end

end Verif.BusSync
