import Verif.Props.FloatingDecimals
import Verif.Props.AscendingTruthful

set_option autoImplicit false

/-! # Runs of the ascending auction with rounded arithmetic on markets that agree on the agents that leave -/

namespace Auctions.Floating

open Auctions Auctions.Spec Auctions.Ascending Auctions.Props

/-- The run is determined by the number of iterations. -/
theorem FlPath.unique {fl : ℚ → ℚ} {cs : List AgentCategory} {r : List ℕ} {n : ℕ} {s s' : ℕ → ℕ} (h : FlPath fl cs r n s) (h' : FlPath fl cs r n s') : s = s' := by
  induction h generalizing s' with
  | start => cases h'; rfl
  | @step n s c hp hc h0 hneg ih =>
    cases h' with
    | @step _ s2 c2 hp2 hc2 h02 hneg2 =>
      obtain rfl := ih hp2
      rw [hc] at hc2
      obtain rfl := Except.ok.inj hc2
      rfl

/-- A longer run passes through the states of a shorter one. -/
theorem FlPath.next {fl : ℚ → ℚ} {cs : List AgentCategory} {r : List ℕ} {n n' : ℕ} {s' : ℕ → ℕ} (h : FlPath fl cs r n' s') (hn : n < n') :
    ∃ s c, FlPath fl cs r n s ∧ flMain fl r (rel cs r) s = .ok c ∧ s c ≠ 0 ∧ flNewSum fl cs r s c < 0 := by
  induction h with
  | start => omega
  | @step m s c hp hc h0 hneg ih =>
    rcases Nat.lt_or_ge n m with h1 | h1
    · exact ih h1
    · obtain rfl : n = m := by omega
      exact ⟨s, c, hp, hc, h0, hneg⟩

theorem FlEnding.final {fl : ℚ → ℚ} {cs : List AgentCategory} {r : List ℕ} {s : ℕ → ℕ} {p : List ℚ} (h : FlEnding fl cs r s p) {c : ℕ}
    (hc : flMain fl r (rel cs r) s = .ok c) (h0 : s c ≠ 0) (hneg : flNewSum fl cs r s c < 0) : False := by
  obtain ⟨c', hc', h1⟩ := h
  rw [hc] at hc'
  obtain rfl := Except.ok.inj hc'
  rcases h1 with ⟨h1, -⟩ | ⟨-, h1, -⟩
  · exact h0 h1
  · linarith

/-- The auction ends in one way only. -/
theorem FlEnding.unique {fl : ℚ → ℚ} {cs : List AgentCategory} {r : List ℕ} {n n' : ℕ} {s s' : ℕ → ℕ} {p p' : List ℚ} (hp : FlPath fl cs r n s) (he : FlEnding fl cs r s p)
    (hp' : FlPath fl cs r n' s') (he' : FlEnding fl cs r s' p') : s = s' ∧ p = p' := by
  have hn : n = n' := by
    rcases Nat.lt_trichotomy n n' with h | h | h
    · obtain ⟨s1, c, h1, h2, h3, h4⟩ := hp'.next h
      obtain rfl := hp.unique h1
      exact (he.final h2 h3 h4).elim
    · exact h
    · obtain ⟨s1, c, h1, h2, h3, h4⟩ := hp.next h
      obtain rfl := hp'.unique h1
      exact (he'.final h2 h3 h4).elim
  subst hn
  obtain rfl := hp.unique hp'
  refine ⟨rfl, ?_⟩
  obtain ⟨c, hc, h1⟩ := he
  obtain ⟨c', hc', h1'⟩ := he'
  rw [hc] at hc'
  obtain rfl := Except.ok.inj hc'
  rcases h1 with ⟨h1, rfl⟩ | ⟨h1, -, rfl⟩ <;> rcases h1' with ⟨h1', rfl⟩ | ⟨h1', -, rfl⟩
  · rfl
  · exact absurd h1 h1'
  · exact absurd h1' h1
  · rfl

theorem flOthers_congr (fl : ℚ → ℚ) {cs ct : List AgentCategory} {r : List ℕ} (hl : ct.length = cs.length) {s : ℕ → ℕ} (he : ∀ j, clock (vAt ct j) (s j) = clock (vAt cs j) (s j)) (c : ℕ) :
    flOthers fl ct r s c = flOthers fl cs r s c := by
  have e : mkPrices ct s = mkPrices cs s := by unfold mkPrices; rw [hl]; simp only [he]
  unfold flOthers
  rw [e, he]

/-- Two markets that agree on the agents that leave go through the same states. -/
theorem flPath_congr {fl : ℚ → ℚ} {cs ct : List AgentCategory} {r : List ℕ} (hl : ct.length = cs.length)
    (hsz : ∀ j, (vAt ct j).length = (vAt cs j).length) {n : ℕ} {s : ℕ → ℕ} (hp : FlPath fl cs r n s) :
    ∀ k : ℕ → ℕ, (∀ j, k j ≤ s j) → (∀ j, (vAt ct j).drop (k j) = (vAt cs j).drop (k j)) → FlPath fl ct r n s := by
  induction hp with
  | start =>
    intro k _ _
    have : (fun i => (vAt cs i).length) = fun i => (vAt ct i).length := by funext i; rw [hsz]
    rw [this]
    exact FlPath.start
  | @step n s c hp hc h0 hneg ih =>
    intro k hk hd
    have hk' : ∀ j, k j ≤ s j := fun j => le_trans (hk j) (update_le j)
    refine (ih k hk' hd).step ?_ h0 ?_
    · rw [Props.rel_congr hl]; exact hc
    · have hkc := hk c
      rw [Function.update_self] at hkc
      unfold flNewSum at hneg ⊢
      rw [flOthers_congr fl hl (fun j => clock_congr (hd j) (hk' j)), clock_congr (hd c) hkc]
      exact hneg

theorem fl_map_zero {fl : ℚ → ℚ} (hf : Rounding fl) : fl 0 = 0 := by
  have := hf.symmetric 0
  rw [neg_zero] at this
  linarith

/-- A report above the computed price stops the clock. -/
theorem stops_above {fl : ℚ → ℚ} (hf : Rounding fl) {o v : ℚ} {n : ℕ} (hn : 0 < n) (ho : Double o) (hv : Double v) (hlt : fl (fl (0 - o) / n) < v) :
    0 ≤ fl (o + fl (n * v)) := by
  have hn' : (0 : ℚ) < n := by exact_mod_cast hn
  have e : fl (0 - o) = -o := by rw [zero_sub, hf.symmetric, hf.exact _ ho]
  rw [e] at hlt
  have h1 : -o / n < v := by
    by_contra hc
    have := hf.monotone _ _ (not_lt.1 hc)
    rw [hf.exact _ hv] at this
    linarith
  rw [div_lt_iff₀ hn'] at h1
  have h2 := hf.monotone (-o) (n * v) (by linarith)
  rw [hf.symmetric, hf.exact _ ho] at h2
  have h3 := hf.monotone 0 (o + fl (n * v)) (by linarith)
  rwa [fl_map_zero hf] at h3

end Auctions.Floating
