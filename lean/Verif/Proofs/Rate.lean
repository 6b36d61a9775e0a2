import Verif.Spec.Rate
import Verif.Proofs.Bandwidth

/-!
# Data rate of the capture path: lemmas
-/

namespace Verif.Capture

open Verif.Spec.Capture Verif.Spec.Frame Verif.Spec.Stream Verif.Props

section Lemmas

variable {σ : Type} {w : Nat} {E : Extractor σ w} {depth nslots aw al : Nat} {x : Nat → In}

local notation "cap" => capture E depth nslots aw al x
local notation "pixE" => (fun u => In.pixEdge (x u))
local notation "sysE" => (fun u => In.sysEdge (x u))
local notation "refused" => (fun u => In.sysEdge (x u) && !In.busReady (x u))
local notation "offer" => offersAt E depth nslots aw al x
local notation "take" => takesAt E depth nslots aw al x
local notation "write" => writesWord E depth nslots aw al x

/-- The FIFO shows a word at every system clock edge. -/
def Shows (E : Extractor σ w) (depth nslots aw al : Nat) (x : Nat → In) (u : Nat) : Prop :=
  (capture E depth nslots aw al x u).fifo ≠ [] ∧ ((x u).sysEdge = true → (x u).rok = true)

theorem take_eq {u : Nat} (h : Shows E depth nslots aw al x u) (hs : (x u).sysEdge = true) :
    (dmaIn (cap u) (x u)).valid = true ∧
    take u = Dma.frameReady (cap u).dma (dmaIn (cap u) (x u)) := by
  have hne : (cap u).fifo.isEmpty = false := by
    cases h' : (cap u).fifo with
    | nil => exact absurd h' h.1
    | cons _ _ => rfl
  have hr := h.2 hs
  constructor
  · show ((x u).rok && !(cap u).fifo.isEmpty) = true
    rw [hne, hr]; rfl
  · unfold takesAt AsyncFifo.sourceValid
    simp only [fifoIn, hne, hr, hs, Bool.not_false, Bool.and_true, Bool.true_and]

theorem take_sys {u : Nat} (hs : (x u).sysEdge = false) : take u = false := by
  unfold takesAt
  simp only [fifoIn, hs, Bool.false_and, Bool.and_false]

/-- The accounts of a window from `t` on in which the FIFO always shows a word, after `n` instants. -/
def Account (E : Extractor σ w) (depth nslots aw al : Nat) (x : Nat → In) (N d t n : Nat) : Prop :=
  let S := fun n => countIn (fun u => (x u).sysEdge) t n
  let R := fun n => countIn (fun u => (x u).sysEdge && !(x u).busReady) t n
  let P := fun n => countIn (takesAt E depth nslots aw al x) t n
  let s := (capture E depth nslots aw al x (t + n)).dma
  (s.fsm = .transferPixels ∧ S n ≤ R n + P n) ∨
  (s.fsm = .eof ∧ ∃ a, a ≤ n ∧ S a ≤ R a + P a ∧
    ∀ u, t + a ≤ u → u < t + n → (capture E depth nslots aw al x u).dma.fsm = .eof ∧
      ((x u).sysEdge = true → (x u).wdataValid = true)) ∨
  (s.fsm = .waitSof ∧ S n ≤ R n + P n + d + 1) ∨
  (s.fsm = .transferPixels ∧ S n ≤ R n + P n + d + 2 ∧ N ≤ s.mwords_remaining + P n ∧
    s.mwords_remaining < 2 ^ aw)

theorem count_mono (p : Nat → Bool) (t : Nat) {a n : Nat} (h : a ≤ n) : countIn p t a ≤ countIn p t n := by
  obtain ⟨k, rfl⟩ := Nat.exists_eq_add_of_le h
  rw [count_add]
  exact Nat.le_add_right _ _

theorem dma_sys {u : Nat} (hs : (x u).sysEdge = true) :
    (cap (u + 1)).dma = Dma.step nslots aw al (cap u).dma (dmaIn (cap u) (x u)) := by
  rw [dma_next, if_pos hs]

theorem dma_nosys {u : Nat} (hs : (x u).sysEdge = false) : (cap (u + 1)).dma = (cap u).dma := by
  rw [dma_next, if_neg (by rw [hs]; decide)]

theorem account_step {N B d t n : Nat} (hsize : ∀ t, Dma.wordsOf aw al (x t).frame_size = N)
    (hBN : B ≤ N)
    (drains : ∀ t m, (∀ u, t ≤ u → u < t + m → (x u).sysEdge = true →
      (x u).wdataValid = true ∧ handed E depth nslots aw al x u = false) → countIn sysE t m ≤ d)
    (hshow : Shows E depth nslots aw al x (t + n)) (hP : countIn take t (n + 1) < B)
    (ih : Account E depth nslots aw al x N d t n) : Account E depth nslots aw al x N d t (n + 1) := by
  unfold Account at ih ⊢
  simp only [] at ih ⊢
  have hPs : countIn take t (n + 1) = countIn take t n + if take (t + n) then 1 else 0 := rfl
  have hSs : countIn sysE t (n + 1) = countIn sysE t n + if (x (t + n)).sysEdge then 1 else 0 := rfl
  have hRs : countIn refused t (n + 1) =
    countIn refused t n + if (x (t + n)).sysEdge && !(x (t + n)).busReady then 1 else 0 := rfl
  rw [← Nat.add_assoc]
  cases hs : (x (t + n)).sysEdge with
  | false =>
    rw [take_sys hs] at hPs
    rw [hs] at hSs hRs
    rw [dma_nosys hs, hSs, hRs, hPs]
    simp only [Bool.false_and, Bool.false_eq_true, if_false, Nat.add_zero]
    rcases ih with h | ⟨h1, a, h2, h3, h4⟩ | h | h
    · exact Or.inl h
    · refine Or.inr (Or.inl ⟨h1, a, by omega, h3, fun u p q => ?_⟩)
      rcases Nat.lt_or_ge u (t + n) with hu | hu
      · exact h4 u p hu
      · rw [show u = t + n by omega]
        exact ⟨h1, fun h => by rw [hs] at h; exact absurd h (by decide)⟩
    · exact Or.inr (Or.inr (Or.inl h))
    · exact Or.inr (Or.inr (Or.inr h))
  | true =>
    obtain ⟨hv, ht⟩ := take_eq hshow hs
    have hb : (dmaIn (cap (t + n)) (x (t + n))).busReady = (x (t + n)).busReady := rfl
    have hwd : (dmaIn (cap (t + n)) (x (t + n))).wdataValid = (x (t + n)).wdataValid := rfl
    have hz : Dma.wordsOf aw al (dmaIn (cap (t + n)) (x (t + n))).frame_size = N := hsize (t + n)
    rw [hs] at hSs hRs
    have hd := dma_sys (E := E) (depth := depth) (nslots := nslots) (aw := aw) (al := al) hs
    rw [hd]
    rcases ih with ⟨h1, h2⟩ | ⟨h1, a, h2, h3, h4⟩ | ⟨h1, h2⟩ | ⟨h1, h2, h3, h4⟩
    · have hf : (Dma.step nslots aw al (cap (t + n)).dma (dmaIn (cap (t + n)) (x (t + n)))).fsm =
          if (x (t + n)).busReady && decide ((cap (t + n)).dma.mwords_remaining = 1) then .eof
            else .transferPixels := by
        unfold Dma.step
        simp only [h1, hv, hb, Bool.true_and]
      have hr : Dma.frameReady (cap (t + n)).dma (dmaIn (cap (t + n)) (x (t + n))) =
          (x (t + n)).busReady := by simp only [Dma.frameReady, h1]; rfl
      rw [ht, hr] at hPs
      have hle : countIn sysE t (n + 1) ≤ countIn refused t (n + 1) + countIn take t (n + 1) := by
        rw [hSs, hRs, hPs]
        cases (x (t + n)).busReady <;> simp <;> omega
      by_cases he : ((x (t + n)).busReady && decide ((cap (t + n)).dma.mwords_remaining = 1)) = true
      · rw [if_pos he] at hf
        exact Or.inr (Or.inl ⟨hf, n + 1, Nat.le_refl _, hle, fun u p q => by omega⟩)
      · rw [if_neg he] at hf
        exact Or.inl ⟨hf, hle⟩
    · have hf : (Dma.step nslots aw al (cap (t + n)).dma (dmaIn (cap (t + n)) (x (t + n)))).fsm =
          if (x (t + n)).wdataValid then .eof else .waitSof := by
        unfold Dma.step
        simp only [h1, hwd]
      have hr : Dma.frameReady (cap (t + n)).dma (dmaIn (cap (t + n)) (x (t + n))) = false := by
        simp only [Dma.frameReady, h1]
      rw [ht, hr] at hPs
      cases hw : (x (t + n)).wdataValid with
      | true =>
        rw [hw, if_pos rfl] at hf
        refine Or.inr (Or.inl ⟨hf, a, by omega, h3, fun u p q => ?_⟩)
        rcases Nat.lt_or_ge u (t + n) with hu | hu
        · exact h4 u p hu
        · rw [show u = t + n by omega]
          exact ⟨h1, fun _ => hw⟩
      | false =>
        rw [hw, if_neg (by decide)] at hf
        refine Or.inr (Or.inr (Or.inl ⟨hf, ?_⟩))
        have hdr := drains (t + a) (n - a) fun u p q hu => by
          obtain ⟨e1, e2⟩ := h4 u p (by omega)
          refine ⟨e2 hu, ?_⟩
          unfold handed Dma.writes Dma.busValid
          rw [e1]
          simp
        have hadd := count_add sysE t a (n - a)
        rw [show a + (n - a) = n by omega] at hadd
        have hm1 := count_mono refused t h2
        have hm2 := count_mono take t h2
        rw [hRs, hPs, hSs]
        simp only [if_true]
        split <;> omega
    · have hr : Dma.frameReady (cap (t + n)).dma (dmaIn (cap (t + n)) (x (t + n))) =
          (!Dma.addressValid (cap (t + n)).dma || !(dmaIn (cap (t + n)) (x (t + n))).sof) := by
        simp only [Dma.frameReady, h1]
      rw [ht, hr] at hPs
      by_cases hg : (Dma.addressValid (cap (t + n)).dma && (dmaIn (cap (t + n)) (x (t + n))).sof) = true
      · have hf : (Dma.step nslots aw al (cap (t + n)).dma (dmaIn (cap (t + n)) (x (t + n)))).fsm =
            .transferPixels := by
          unfold Dma.step
          simp only [h1, hv, hg, Bool.and_self, if_true]
        have hm : (Dma.step nslots aw al (cap (t + n)).dma
            (dmaIn (cap (t + n)) (x (t + n)))).mwords_remaining = N := by
          unfold Dma.step
          simp only [h1, if_true, hz]
        have hlt : N < 2 ^ aw := by
          rw [← hz]
          unfold Dma.wordsOf
          exact Nat.mod_lt _ (Nat.two_pow_pos aw)
        refine Or.inr (Or.inr (Or.inr ⟨hf, ?_, by rw [hm]; omega, by rw [hm]; exact hlt⟩))
        rw [hRs, hPs, hSs]
        simp only [if_true]
        split <;> split <;> omega
      · have hf : (Dma.step nslots aw al (cap (t + n)).dma (dmaIn (cap (t + n)) (x (t + n)))).fsm =
            .waitSof := by
          unfold Dma.step
          simp only [h1, hv, hg, Bool.and_true, if_false, Bool.false_eq_true]
        have hp : (!Dma.addressValid (cap (t + n)).dma || !(dmaIn (cap (t + n)) (x (t + n))).sof) = true := by
          revert hg
          cases Dma.addressValid (cap (t + n)).dma <;> cases (dmaIn (cap (t + n)) (x (t + n))).sof <;> simp
        rw [hp] at hPs
        refine Or.inr (Or.inr (Or.inl ⟨hf, ?_⟩))
        rw [hRs, hPs, hSs]
        simp only [if_true]
        split <;> omega
    · have hr : Dma.frameReady (cap (t + n)).dma (dmaIn (cap (t + n)) (x (t + n))) =
          (x (t + n)).busReady := by simp only [Dma.frameReady, h1]; rfl
      rw [ht, hr] at hPs
      have hw : Dma.writes (cap (t + n)).dma (dmaIn (cap (t + n)) (x (t + n))) = (x (t + n)).busReady := by
        unfold Dma.writes Dma.busValid
        rw [h1, hv, hb]
        simp
      have hrem : ¬ ((x (t + n)).busReady = true ∧ (cap (t + n)).dma.mwords_remaining = 1) := by
        rintro ⟨b1, b2⟩
        rw [b1] at hPs
        simp only [if_true] at hPs
        omega
      have hf : (Dma.step nslots aw al (cap (t + n)).dma (dmaIn (cap (t + n)) (x (t + n)))).fsm =
          .transferPixels := by
        unfold Dma.step
        simp only [h1, hv, hb, Bool.true_and]
        rw [if_neg]
        simpa using hrem
      have hm : (Dma.step nslots aw al (cap (t + n)).dma
          (dmaIn (cap (t + n)) (x (t + n)))).mwords_remaining =
          if (x (t + n)).busReady then ((cap (t + n)).dma.mwords_remaining + 2 ^ aw - 1) % 2 ^ aw
            else (cap (t + n)).dma.mwords_remaining := by
        unfold Dma.step
        simp only [h1, hw]
        rw [if_neg (by decide)]
      refine Or.inr (Or.inr (Or.inr ⟨hf, ?_, ?_⟩))
      · rw [hRs, hPs, hSs]
        cases (x (t + n)).busReady <;> simp <;> omega
      · rw [hm]
        cases hbr : (x (t + n)).busReady with
        | false =>
          rw [hbr] at hPs
          simp only [Bool.false_eq_true, if_false] at hPs ⊢
          exact ⟨by omega, h4⟩
        | true =>
          rw [hbr] at hPs
          simp only [if_true] at hPs ⊢
          have h5 : 1 ≤ (cap (t + n)).dma.mwords_remaining := by omega
          have h6 : ((cap (t + n)).dma.mwords_remaining + 2 ^ aw - 1) % 2 ^ aw =
              (cap (t + n)).dma.mwords_remaining - 1 := by
            rw [show (cap (t + n)).dma.mwords_remaining + 2 ^ aw - 1 =
              (cap (t + n)).dma.mwords_remaining - 1 + 2 ^ aw by omega, Nat.add_mod_right]
            exact Nat.mod_eq_of_lt (by omega)
          rw [h6]
          exact ⟨by omega, by omega⟩

/-- In `W` system clocks throughout which the FIFO shows a word, `B` words are taken. -/
theorem window {N B W R d t m : Nat} (hsize : ∀ t, Dma.wordsOf aw al (x t).frame_size = N)
    (hBN : B ≤ N)
    (refuses : ∀ t m, countIn sysE t m ≤ W → countIn refused t m ≤ R)
    (drains : ∀ t m, (∀ u, t ≤ u → u < t + m → (x u).sysEdge = true →
      (x u).wdataValid = true ∧ handed E depth nslots aw al x u = false) → countIn sysE t m ≤ d)
    (enough : R + B + d + 2 ≤ W)
    (hshow : ∀ u, t ≤ u → u < t + m → Shows E depth nslots aw al x u)
    (hS : W ≤ countIn sysE t m) : B ≤ countIn take t m := by
  by_contra hcon
  obtain ⟨n, hn, hSn⟩ := reach hS
  have hPn : countIn take t n < B := by
    have := count_mono take t hn
    omega
  have hacc : ∀ k, k ≤ n → Account E depth nslots aw al x N d t k := by
    intro k
    induction k with
    | zero =>
      intro _
      unfold Account
      simp only [countIn, Nat.add_zero]
      cases hf : (cap t).dma.fsm with
      | waitSof => exact Or.inr (Or.inr (Or.inl ⟨rfl, by omega⟩))
      | transferPixels => exact Or.inl ⟨rfl, Nat.le_refl _⟩
      | eof => exact Or.inr (Or.inl ⟨rfl, 0, Nat.le_refl _, Nat.le_refl _, fun u p q => by omega⟩)
    | succ k ih =>
      intro hk
      refine account_step hsize hBN drains (hshow (t + k) (by omega) (by omega)) ?_ (ih (by omega))
      have := count_mono take t hk
      omega
  have hR := refuses t n (by omega)
  have h := hacc n (Nat.le_refl _)
  unfold Account at h
  simp only [] at h
  rcases h with ⟨-, h⟩ | ⟨-, a, h2, h3, h4⟩ | ⟨-, h⟩ | ⟨-, h, -⟩
  · omega
  · have hdr := drains (t + a) (n - a) fun u p q hu => by
      obtain ⟨e1, e2⟩ := h4 u p (by omega)
      refine ⟨e2 hu, ?_⟩
      unfold handed Dma.writes Dma.busValid
      rw [e1]
      simp
    have hadd := count_add sysE t a (n - a)
    rw [show a + (n - a) = n by omega] at hadd
    have hm1 := count_mono refused t h2
    have hm2 := count_mono take t h2
    omega
  · omega
  · omega

/-- The last instant up to `t` at which the FIFO does not show a word. -/
theorem last_hidden (t : Nat) : ∃ a, a ≤ t ∧ ¬ Shows E depth nslots aw al x a ∧
    ∀ u, a < u → u ≤ t → Shows E depth nslots aw al x u := by
  induction t with
  | zero => exact ⟨0, Nat.le_refl _, fun h => h.1 rfl, fun u h1 h2 => by omega⟩
  | succ t ih =>
    by_cases h : Shows E depth nslots aw al x (t + 1)
    · obtain ⟨a, h1, h2, h3⟩ := ih
      refine ⟨a, by omega, h2, fun u h4 h5 => ?_⟩
      rcases Nat.lt_or_eq_of_le h5 with h6 | rfl
      · exact h3 u h4 (by omega)
      · exact h
    · exact ⟨t + 1, Nat.le_refl _, h, fun u h1 h2 => by omega⟩

theorem windows {N B W R d : Nat} (hsize : ∀ t, Dma.wordsOf aw al (x t).frame_size = N)
    (hBN : B ≤ N)
    (fast : FastEnough E.pf B W R d pixE sysE (fun u => (x u).busReady) (fun u => (x u).wdataValid)
      (handed E depth nslots aw al x))
    (enough : R + B + d + 2 ≤ W) (q : Nat) {t e : Nat} (hte : t ≤ e)
    (hshow : ∀ u, t ≤ u → u < e → Shows E depth nslots aw al x u)
    (hq : q * (B * E.pf) ≤ countIn pixE t (e - t)) :
    q * B ≤ countIn take t (e - t) := by
  induction q generalizing t with
  | zero => omega
  | succ q ih =>
    rw [Nat.add_mul, Nat.one_mul] at hq ⊢
    obtain ⟨m, h1, h2⟩ := reach (c := B * E.pf) (p := pixE) (a := t) (n := e - t) (by omega)
    have ha := count_add pixE t m (e - t - m)
    have hb := count_add take t m (e - t - m)
    rw [show m + (e - t - m) = e - t by omega] at ha hb
    have hs := window hsize hBN fast.refuses fast.drains enough (t := t) (m := m)
      (fun u a b => hshow u a (by omega)) (fast.clocks t m (by omega))
    have := ih (t := t + m) (by omega) (fun u a b => hshow u (by omega) b)
      (by rw [show e - (t + m) = e - t - m by omega]; omega)
    rw [show e - (t + m) = e - t - m by omega] at this
    omega

/-- The FIFO never holds more than `2 B` words. -/
theorem rate_occupancy (hE : Packs E) {N B W R d K : Nat} (hB : 1 ≤ B)
    (hsize : ∀ t, Dma.wordsOf aw al (x t).frame_size = N) (hBN : B ≤ N)
    (fast : FastEnough E.pf B W R d pixE sysE (fun u => (x u).busReady) (fun u => (x u).wdataValid)
      (handed E depth nslots aw al x))
    (enough : R + B + d + 2 ≤ W) (hides : HidesBy E depth nslots aw al x K) (hK : K < W) (t : Nat) :
    (cap t).fifo.length ≤ 2 * B := by
  obtain ⟨a, h1, h2, h3⟩ := last_hidden (E := E) (depth := depth) (nslots := nslots) (aw := aw) (al := al)
    (x := x) t
  have hpf := hE.pf
  have hlen : (cap a).fifo.length ≤ B := by
    by_cases hne : (cap a).fifo = []
    · rw [hne]; exact Nat.zero_le _
    · have hr : (x a).rok = false := by
        cases hr : (x a).rok with
        | false => rfl
        | true => exact absurd ⟨hne, fun _ => hr⟩ h2
      obtain ⟨v, v1, v2, v3⟩ := hides a hr
      have hw := write_le (E := E) (depth := depth) (nslots := nslots) (aw := aw) (al := al) (x := x) v (a - v)
      have hp := (pace (E := E) (depth := depth) (nslots := nslots) (aw := aw) (al := al) (x := x) hE v
        (a - v)).2
      have hc : countIn pixE v (a - v) < B * E.pf := by
        by_contra hc
        have := fast.clocks v (a - v) (by omega)
        omega
      have h5 : countIn offer v (a - v) * E.pf < (B + 1) * E.pf := by
        rw [Nat.add_mul, Nat.one_mul]; omega
      have h6 := Nat.lt_of_mul_lt_mul_right h5
      omega
  rcases Nat.lt_or_eq_of_le h1 with h | rfl
  swap
  · omega
  obtain ⟨n, rfl⟩ : ∃ n, t = a + 1 + n := ⟨t - (a + 1), by omega⟩
  have hl := length_from (E := E) (depth := depth) (nslots := nslots) (aw := aw) (al := al) (x := x) a (1 + n)
  rw [← Nat.add_assoc] at hl
  have hw := write_le (E := E) (depth := depth) (nslots := nslots) (aw := aw) (al := al) (x := x) a (1 + n)
  have hp := (pace (E := E) (depth := depth) (nslots := nslots) (aw := aw) (al := al) (x := x) hE a (1 + n)).2
  have hc := count_add pixE a 1 n
  have ht := count_add take a 1 n
  have h1' : countIn pixE a 1 ≤ 1 := by simp only [countIn]; split <;> omega
  have hBp : 0 < B * E.pf := Nat.mul_pos hB (by omega)
  have hs := windows hsize hBN fast enough (countIn pixE (a + 1) n / (B * E.pf)) (t := a + 1)
    (e := a + 1 + n) (by omega) (fun u p q => h3 u (by omega) (by omega))
    (by rw [show a + 1 + n - (a + 1) = n by omega]; exact Nat.div_mul_le_self _ _)
  rw [show a + 1 + n - (a + 1) = n by omega] at hs
  have hlt : countIn pixE (a + 1) n < (countIn pixE (a + 1) n / (B * E.pf) + 1) * (B * E.pf) := by
    rw [Nat.mul_comm]; exact Nat.lt_mul_div_succ _ hBp
  generalize countIn pixE (a + 1) n / (B * E.pf) = q at hs hlt
  have h5 : countIn offer a (1 + n) * E.pf < (q * B + B + 1) * E.pf := by
    have e : (q + 1) * (B * E.pf) + E.pf = (q * B + B + 1) * E.pf := by ring
    rw [← e]; omega
  have h6 := Nat.lt_of_mul_lt_mul_right h5
  omega

/-! ## Progress -/

theorem count_grows {p : Nat → Bool} (h : ∀ T, ∃ u, T ≤ u ∧ p u = true) (T k : Nat) :
    ∃ m, k ≤ countIn p T m := by
  induction k with
  | zero => exact ⟨0, Nat.zero_le _⟩
  | succ k ih =>
    obtain ⟨m, hm⟩ := ih
    obtain ⟨u, h1, h2⟩ := h (T + m)
    refine ⟨m + (u - (T + m) + 1), ?_⟩
    rw [count_add]
    have := count_pos (p := p) (a := T + m) (n := u - (T + m) + 1) (z := u) h1 (by omega) h2
    omega

theorem count_some {p : Nat → Bool} {a n : Nat} (h : 1 ≤ countIn p a n) :
    ∃ u, a ≤ u ∧ u < a + n ∧ p u = true := by
  induction n with
  | zero => simp [countIn] at h
  | succ n ih =>
    by_cases h' : 1 ≤ countIn p a n
    · obtain ⟨u, h1, h2, h3⟩ := ih h'
      exact ⟨u, h1, by omega, h3⟩
    · refine ⟨a + n, by omega, by omega, ?_⟩
      simp only [countIn] at h
      by_contra hp
      rw [if_neg hp] at h
      omega

/-- If pixels keep coming and the memory is fast enough, transfers make progress. -/
theorem rate_moves {B W R d K : Nat}
    (fast : FastEnough E.pf B W R d pixE sysE (fun u => (x u).busReady) (fun u => (x u).wdataValid)
      (handed E depth nslots aw al x))
    (enough : R < W) (hides : HidesBy E depth nslots aw al x K)
    (pix : ∀ T, ∃ u, T ≤ u ∧ (x u).pixEdge = true) : Moves E depth nslots aw al x := by
  have sys : ∀ T, ∃ u, T ≤ u ∧ (x u).sysEdge = true := by
    intro T
    obtain ⟨m, hm⟩ := count_grows (p := pixE) pix T (B * E.pf)
    have h1 := fast.clocks T m hm
    obtain ⟨u, h1, -, h2⟩ := count_some (p := sysE) (a := T) (n := m) (by omega)
    exact ⟨u, h1, h2⟩
  have ready : ∀ T, ∃ u, T ≤ u ∧ (x u).sysEdge = true ∧ (x u).busReady = true := by
    intro T
    by_contra hno
    have hsame : ∀ m, countIn refused T m = countIn sysE T m := by
      intro m
      induction m with
      | zero => rfl
      | succ m ih =>
        simp only [countIn]
        rw [ih]
        have : ((x (T + m)).sysEdge && !(x (T + m)).busReady) = (x (T + m)).sysEdge := by
          cases hs : (x (T + m)).sysEdge with
          | false => rfl
          | true =>
            cases hb : (x (T + m)).busReady with
            | false => rfl
            | true => exact absurd ⟨T + m, by omega, hs, hb⟩ hno
        simp only [this]
    obtain ⟨m, hm⟩ := count_grows (p := sysE) sys T W
    obtain ⟨m', -, hm'⟩ := reach (p := sysE) hm
    have h1 := fast.refuses T m' (Nat.le_of_eq hm')
    have h2 := hsame m'
    rw [h2, hm'] at h1
    omega
  refine ⟨sys, fun T => ?_, fun T => ?_⟩
  · by_contra hno
    have hne : ∀ u, T ≤ u → (cap u).fifo ≠ [] := fun u hu h => hno ⟨u, hu, .inl h⟩
    have htake : ∀ u, T ≤ u → take u = false := by
      intro u hu
      rw [Bool.eq_false_iff]
      intro h
      unfold takesAt AsyncFifo.sourceValid at h
      simp only [fifoIn, Bool.and_eq_true] at h
      exact hno ⟨u, hu, .inr ⟨h.2.1, h.1.1, .inl h.2.2⟩⟩
    have hzero : ∀ a n, T ≤ a → countIn take a n = 0 := by
      intro a n ha
      induction n with
      | zero => rfl
      | succ n ih => simp [countIn, ih, htake (a + n) (by omega)]
    obtain ⟨m, hm⟩ := count_grows (p := sysE) sys T (K + 1)
    obtain ⟨u, hu, hs, hb⟩ := ready (T + m)
    refine hno ⟨u, by omega, .inr ⟨hs, ?_, .inr hb⟩⟩
    by_contra hr
    obtain ⟨v, hv, hk, hlen⟩ := hides u (Bool.eq_false_iff.2 hr)
    have hTv : T ≤ v := by
      by_contra hlt
      have h1 := count_add sysE v (T - v) (u - T)
      rw [show T - v + (u - T) = u - v by omega, show v + (T - v) = T by omega] at h1
      have h2 := count_mono sysE T (a := m) (n := u - T) (by omega)
      omega
    have h1 := length_from (E := E) (depth := depth) (nslots := nslots) (aw := aw) (al := al) (x := x) v
      (u - v)
    rw [hzero v _ hTv, show v + (u - v) = u by omega] at h1
    have h2 := List.length_pos_iff.2 (hne v hTv)
    omega
  · by_contra hno
    obtain ⟨m, hm⟩ := count_grows (p := sysE) sys T (d + 1)
    have h1 := fast.drains T m fun u h1 _ hs => by
      constructor
      · by_contra hw
        exact hno ⟨u, h1, hs, .inl (Bool.eq_false_iff.2 hw)⟩
      · rw [Bool.eq_false_iff]
        intro h
        unfold handed at h
        rw [Bool.and_eq_true] at h
        exact hno ⟨u, h1, hs, .inr h.2⟩
    omega

/-- If the memory is fast enough and the FIFO deep enough no word is lost. -/
theorem rate_no_overflow (hE : Packs E) {B W R d K L N : Nat} (hB : 1 ≤ B)
    (hsize : ∀ t, Dma.wordsOf aw al (x t).frame_size = N) (hBN : B ≤ N)
    (fast : FastEnough E.pf B W R d pixE sysE (fun u => (x u).busReady) (fun u => (x u).wdataValid)
      (handed E depth nslots aw al x))
    (enough : R + B + d + 2 ≤ W) (hides : HidesBy E depth nslots aw al x K) (hK : K < W)
    (lag : LagsBy E depth nslots aw al x L) (hdepth : 2 * B + (L + E.pf - 1) / E.pf < depth)
    (T0 T : Nat) : NoOverflow E depth nslots aw al x T0 T := by
  intro t _ _ _ _
  have hlen := rate_occupancy hE hB hsize hBN fast enough hides hK
  refine ⟨?_, Nat.lt_of_le_of_lt (hlen t) (Nat.lt_of_le_of_lt (Nat.le_add_right _ _) hdepth)⟩
  by_contra hw
  obtain ⟨v, h1, h2, h3⟩ := lag t (Bool.eq_false_iff.2 hw)
  have h4 := write_le (E := E) (depth := depth) (nslots := nslots) (aw := aw) (al := al) (x := x) v (t - v)
  have h5 := (pace (E := E) (depth := depth) (nslots := nslots) (aw := aw) (al := al) (x := x) hE v
    (t - v)).2
  have hpf := hE.pf
  have h6 : countIn offer v (t - v) ≤ (L + E.pf - 1) / E.pf := by
    rw [Nat.le_div_iff_mul_le (by omega)]
    omega
  have := hlen v
  omega

end Lemmas

end Verif.Capture
