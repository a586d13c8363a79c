import Verif.Proofs.SlidingEntry
import Verif.Proofs.CrossingChain
/-
The error of switching Runge-Kutta steps along a trajectory that crosses surfaces several times and then slides.
-/
namespace Nosnoc
open Finset

section
variable {V : Type*} [NormedAddCommGroup V] [NormedSpace ℝ V]
variable {n : Nat} {a : Nat → Nat → ℝ} {b bw c : Nat → ℝ} {H : ℝ} {M : Nat}
  {x : Nat → V} {t h : Nat → ℝ} {X K : Nat → Nat → V} {A L D δ : ℝ}

theorem SlidingEntry.shift {fA fB fS : V → V} {ψ : V → ℝ} {φA φS : ℝ → V} {G : V →ₗ[ℝ] ℝ} {ts η T α Lψ r vel : ℝ}
    (C : SlidingEntry n D L fA fB fS ψ φA φS G ts η T α Lψ r vel) {d : ℝ} (h0 : 0 ≤ d) (h1 : d ≤ ts) :
    SlidingEntry n D L fA fB fS ψ (fun u => φA (d + u)) (fun u => φS (d + u)) G (ts - d) η (T - d) α Lψ r vel where
  eta := C.eta
  alpha := C.alpha
  radius := C.radius
  lipNonneg := C.lipNonneg
  start := by linarith
  horizon := by linarith [C.horizon]
  before := (C.before.shift d).mono (by linarith) (by linarith)
  after := (C.after.shift d).mono (by linarith) (by linarith)
  meet := by
    have : d + (ts - d) = ts := by ring
    simp only [this]; exact C.meet
  below := fun u hu0 hu1 => (C.below (d + u) (by linarith) (by linarith)).trans (le_of_eq (by ring))
  above := fun u hu0 hu1 => (le_of_eq (by ring)).trans (C.above (d + u) (by linarith) (by linarith))
  plane := C.plane
  normal := C.normal
  inward := fun u y hu0 hu1 hy => C.inward (d + u) y (by linarith) (by linarith) hy
  sliding := fun u y hu0 hu1 hy => C.sliding (d + u) y (by linarith) (by linarith) hy
  lipschitz := C.lipschitz

/-- The error along an entry into a sliding mode that begins at position `k0`. -/
theorem SwitchSteps.slidesAt {fA fB fS : V → V} {ψ : V → ℝ} {w : Nat → Nat → ℝ}
    (S : SwitchSteps n a b bw fA fB ψ H M x t h X K w) (hn : 0 < n)
    (ho : StageOrder n a b c δ) (hδ0 : 0 ≤ δ)
    (hA : ∀ j < n, ∑ r ∈ range n, |a j r| ≤ A) (hB : ∑ r ∈ range n, |b r| ≤ A)
    (hLA : ∀ x y, ‖fA x - fA y‖ ≤ L * ‖x - y‖) (hLB : ∀ x y, ‖fB x - fB y‖ ≤ L * ‖x - y‖) (hL0 : 0 ≤ L)
    (hH0 : 0 ≤ H) (hH : H ≤ 1 / (2 * (A * L) + 1))
    (hreg : ∀ v : Nat → ℝ, (∀ j < n, ∑ r ∈ range n, a j r * v r = 0) → ∀ r < n, v r = 0)
    (hmid : ∀ k < M, ∀ j < n, ∀ j' < n, (w k j ≠ 0 → ψ (X k j') ≤ 0) ∧ (w k j ≠ 1 → 0 ≤ ψ (X k j')))
    {φA φS : ℝ → V} {G : V →ₗ[ℝ] ℝ}
    {s ts η Te T α Lψ r vel : ℝ} {k0 : Nat} (hk0 : k0 ≤ M) (h0 : s ≤ t k0) (h1 : t k0 ≤ ts)
    (C : SlidingEntry n D L fA fB fS ψ (fun u => φA (s + u)) (fun u => φS (s + u)) G (ts - s) η (Te - s) α Lψ r vel)
    (hT : Te - s ≤ T) (hr : 4 * A * vel * H ≤ r) (hη : H ≤ η / 2) (hx : ψ (x k0) ≤ 0)
    {E : ℝ} (hE : crossConst n A L D T α Lψ * (‖x k0 - φA (t k0)‖ + H ^ n + δ) ≤ E)
    (hE1 : E ≤ η / 2) (hE2 : E ≤ r / 2) :
    ∃ N1, k0 ≤ N1 ∧ N1 ≤ M ∧ (∀ k, k0 ≤ k → k < N1 → h k = 0 ∨ ∀ j < n, w k j = 1) ∧
      (N1 < M → ∀ k, N1 ≤ k → k ≤ M → t k ≤ Te → ψ (x k) = 0) ∧
      (N1 < M → |t N1 - ts| ≤ E) ∧ (∀ k, k0 ≤ k → k ≤ N1 → t k ≤ ts + E) ∧
      ∀ k, k0 ≤ k → k ≤ M → t k ≤ Te → ‖x k - if t k ≤ ts then φA (t k) else φS (t k)‖ ≤ E := by
  have hA0 : 0 ≤ A := (Finset.sum_nonneg fun _ _ => abs_nonneg _).trans hB
  have C' := C.shift (d := t k0 - s) (by linarith) (by linarith)
  have e1 : ∀ u, s + (t k0 - s + u) = t k0 + u := fun u => by ring
  have e2 : ts - s - (t k0 - s) = ts - t k0 := by ring
  have e3 : Te - s - (t k0 - s) = Te - t k0 := by ring
  simp only [e1, e2, e3] at C'
  have hth := C'.horizon
  have hts := C'.start
  have heta := C'.eta
  have hmono : crossConst n A L D (Te - t k0) α Lψ * (‖x k0 - φA (t k0)‖ + H ^ n + δ) ≤ E := by
    refine (mul_le_mul_of_nonneg_right (crossConst_mono hA0 hL0 (by linarith) (by linarith) C.alpha C.lipNonneg)
      (by positivity)).trans hE
  obtain ⟨N1, n1, n2, n3, n4, n5, n6⟩ := (S.drop k0).slides hn ho hδ0 hA hB hLA hLB hL0 hH0 hH hreg
    (fun k hk => hmid (k0 + k) (by omega)) C' hr hη hx
    (E := crossConst n A L D (Te - t k0) α Lψ * (‖x k0 - φA (t k0)‖ + H ^ n + δ))
    (by simp only [add_zero]) (hmono.trans hE1) (hmono.trans hE2)
  have hk : ∀ k, k0 ≤ k → k0 + (k - k0) = k := fun k hk => by omega
  refine ⟨k0 + N1, by omega, by omega, ?_, ?_, ?_, ?_, ?_⟩
  · intro k h1 h2
    have := n2 (k - k0) (by omega)
    simpa only [hk k h1] using this
  · intro hlt k h1 h2 h3
    have := n3 (by omega) (k - k0) (by omega) (by omega) (by rw [hk k (by omega)]; linarith)
    simpa only [hk k (show k0 ≤ k by omega)] using this
  · intro h1
    have := n4 (by omega)
    rw [show t (k0 + N1) - t k0 - (ts - t k0) = t (k0 + N1) - ts by ring] at this
    exact this.trans hmono
  · intro k h1 h2
    have := n5 (k - k0) (by omega)
    rw [hk k h1] at this
    linarith
  · intro k h1 h2 h3
    have := n6 (k - k0) (by omega) (by rw [hk k h1]; linarith)
    simp only [hk k h1] at this
    have e4 : t k0 + (t k - t k0) = t k := by ring
    have e5 : (t k - t k0 ≤ ts - t k0) ↔ t k ≤ ts := by constructor <;> intro <;> linarith
    simp only [e4, e5] at this
    exact this.trans hmono

set_option maxHeartbeats 1000000 in
/-- The error along a chain of crossings that ends in a sliding mode. -/
theorem SwitchSteps.chainSlides {f : Nat → V → V} {fS : V → V} {ψ : Nat → V → ℝ} {w : Nat → Nat → Nat → ℝ}
    (S : ∀ q, SwitchSteps n a b bw (f q) (f (q + 1)) (ψ q) H M x t h X K (w q))
    (hw : ∀ q k j, w (q + 1) k j = 1 - w q k j) (hn : 0 < n)
    (ho : StageOrder n a b c δ) (hδ0 : 0 ≤ δ)
    (hA : ∀ j < n, ∑ r ∈ range n, |a j r| ≤ A) (hB : ∑ r ∈ range n, |b r| ≤ A)
    (hL : ∀ q x y, ‖f q x - f q y‖ ≤ L * ‖x - y‖) (hL0 : 0 ≤ L)
    (hH0 : 0 ≤ H) (hH : H ≤ 1 / (2 * (A * L) + 1))
    (hreg : ∀ v : Nat → ℝ, (∀ j < n, ∑ r ∈ range n, a j r * v r = 0) → ∀ r < n, v r = 0)
    {φ : Nat → ℝ → V} {s ts : Nat → ℝ} {η T α Lψ r vel μ : ℝ} {m : Nat} (hm : 0 < m)
    (hmid : ∀ k < M, ∀ j < n, ∀ j' < n, (w m k j ≠ 0 → ψ m (X k j') ≤ 0) ∧ (w m k j ≠ 1 → 0 ≤ ψ m (X k j')))
    (C : CrossingChain n D f ψ m φ s ts η T α Lψ r vel μ) {G : V →ₗ[ℝ] ℝ} {Te : ℝ} (hlat : s m + η ≤ ts m)
    (Z : SlidingEntry n D L (f m) (f (m + 1)) fS (ψ m) (fun u => φ m (s m + u)) (fun u => φ (m + 1) (s m + u)) G
      (ts m - s m) η (Te - s m) α Lψ r vel) (hTe : Te - s m ≤ T)
    (hr : 4 * A * vel * H ≤ r) (hη : H ≤ η / 2)
    {E : ℝ} (hE : E = (crossConst n A L D T α Lψ + 1) ^ (m + 1) * (‖x 0 - φ 0 0‖ + H ^ n + δ))
    (hE1 : E ≤ η / 2) (hE2 : E ≤ r / 2) :
    ∃ N1 : Nat → Nat, N1 0 = 0 ∧ (∀ q ≤ m, N1 q ≤ N1 (q + 1) ∧ N1 (q + 1) ≤ M) ∧
      (∀ q ≤ m, ∀ k, N1 q ≤ k → k < N1 (q + 1) → h k = 0 ∨ ∀ j < n, w q k j = 1) ∧
      (N1 (m + 1) < M → ∀ k, N1 (m + 1) ≤ k → k ≤ M → t k ≤ Te → ψ m (x k) = 0) ∧
      (∀ q ≤ m, N1 (q + 1) < M → |t (N1 (q + 1)) - ts q| ≤ E) ∧
      (∀ q ≤ m, ∀ k ≤ N1 (q + 1), t k ≤ ts q + E) ∧
      ∀ k ≤ M, t k ≤ Te → ∀ q ≤ m + 1, (∀ q' < q, ts q' < t k) → (q < m + 1 → t k ≤ ts q) →
        ‖x k - φ q (t k)‖ ≤ E := by
  classical
  have hA0 : 0 ≤ A := (Finset.sum_nonneg fun _ _ => abs_nonneg _).trans hB
  have hη0 := Z.eta
  have hts := Z.start
  have hth := Z.horizon
  have hT0 : 0 ≤ T := by linarith
  have hz : t 0 = 0 := (S 0).zero
  have tmono : ∀ k, ∀ i, k + i ≤ M → t k ≤ t (k + i) := by
    intro k i
    induction i with
    | zero => intro _; simp
    | succ i ih =>
      intro hM
      have h1 := ih (by omega)
      have h2 := (S 0).next (k + i) (by omega)
      have h3 := ((S 0).step (k + i) (by omega)).1
      rw [← Nat.add_assoc, h2]
      linarith
  have tmono' : ∀ k k', k ≤ k' → k' ≤ M → t k ≤ t k' := by
    intro k k' h1 h2
    have := tmono k (k' - k) (by omega)
    rwa [Nat.add_sub_cancel' h1] at this
  set c1 := crossConst n A L D T α Lψ with hc1
  have hc11 : 1 ≤ c1 := crossConst_ge hA0 hL0 hT0 Z.alpha Z.lipNonneg
  set e := ‖x 0 - φ 0 0‖ + H ^ n + δ with he
  have hHn : 0 ≤ H ^ n := pow_nonneg hH0 n
  have he0 : 0 ≤ e := by positivity
  have hen : H ^ n + δ ≤ e := by rw [he]; linarith [norm_nonneg (x 0 - φ 0 0)]
  set E0 := (c1 + 1) ^ m * e with hE0
  have hpow : 1 ≤ (c1 + 1) ^ m := one_le_pow₀ (by linarith)
  have hE00 : 0 ≤ E0 := by positivity
  have hEs : E = c1 * E0 + E0 := by rw [hE, hE0, pow_succ]; ring
  have heE : (c1 + 1) * e ≤ E0 := by
    rw [hE0]
    refine mul_le_mul_of_nonneg_right ?_ he0
    calc c1 + 1 = (c1 + 1) ^ 1 := (pow_one _).symm
      _ ≤ (c1 + 1) ^ m := pow_le_pow_right₀ (by linarith) hm
  have hb0 : E0 ≤ E := by rw [hEs]; nlinarith
  obtain ⟨N1, n1, n2, n3, n4, n5, n6⟩ := SwitchSteps.chain S hw hn ho hδ0 hA hB hL hL0 hH0 hH hm C hr hη
    (E := E0) hE0 (hb0.trans hE1) (hb0.trans hE2)
  have hord := C.order m le_rfl
  have hlast : N1 m ≤ M := by
    obtain ⟨m', rfl⟩ := Nat.exists_eq_add_of_le' hm
    exact (n2 m' (by omega)).2
  have hpos : 0 < s m := by
    obtain ⟨G0, C0⟩ := C.crossing 0 hm
    have h2 := hord 0 hm
    have h3 := C0.start
    rw [C.start] at h3
    linarith
  -- positions between two crossings
  have inner : ∀ q < m, ∀ k, N1 q ≤ k → k < N1 (q + 1) → h k = 0 ∨ ∀ j < n, w q k j = 1 := by
    intro q hq k h1 h2
    have h3 := n5 q hq k h2.le
    have h4 := hord q hq
    exact n3 q hq.le k h1 (by have := (n2 q hq).2; omega) (fun _ => h2) (by linarith)
  -- positions before the time `s m`
  have early : ∀ k ≤ M, t k < s m → ∀ q ≤ m + 1, (∀ q' < q, ts q' < t k) → (q < m + 1 → t k ≤ ts q) →
      ‖x k - φ q (t k)‖ ≤ E := by
    intro k hk ht q hq h2 h3
    rcases Nat.lt_or_ge m q with hq' | hq'
    · have := h2 m hq'
      linarith
    · exact (n6 k hk (by linarith) q hq' h2 fun hq => h3 (by omega)).trans hb0
  by_cases hex : ∃ k, k ≤ M ∧ s m ≤ t k
  swap
  · have hall : ∀ k ≤ M, t k < s m := fun k hk => by
      by_contra hc
      exact hex ⟨k, hk, not_lt.1 hc⟩
    refine ⟨fun q => if q ≤ m then N1 q else M, by simp [n1], ?_, ?_, ?_, ?_, ?_, ?_⟩
    · intro q hq
      rcases Nat.lt_or_eq_of_le hq with hq' | rfl
      · simpa [hq'.le, Nat.succ_le_of_lt hq'] using n2 q hq'
      · simp [hlast]
    · intro q hq k h2 h3
      rcases Nat.lt_or_eq_of_le hq with hq' | rfl
      · simp only [hq'.le, Nat.succ_le_of_lt hq', if_true] at h2 h3
        exact inner q hq' k h2 h3
      · simp at h2 h3
        exact n3 q le_rfl k h2 h3 (fun hh => absurd hh (lt_irrefl _)) (by linarith [hall k h3.le])
    · intro h2
      simp at h2
    · intro q hq h2
      rcases Nat.lt_or_eq_of_le hq with hq' | rfl
      · simp only [Nat.succ_le_of_lt hq', if_true] at h2 ⊢
        exact (n4 q hq' h2).trans hb0
      · simp at h2
    · intro q hq k h2
      rcases Nat.lt_or_eq_of_le hq with hq' | rfl
      · simp only [Nat.succ_le_of_lt hq', if_true] at h2
        have := n5 q hq' k h2
        linarith
      · simp at h2
        have := hall k h2
        linarith
    · intro k hk _ q hq h2 h3
      exact early k hk (hall k hk) q hq h2 h3
  set k0 := Nat.find hex with hk0
  obtain ⟨hk0M, hk0s⟩ := Nat.find_spec hex
  rw [← hk0] at hk0M hk0s
  have hbefore : ∀ k < k0, t k < s m := by
    intro k hk
    have := Nat.find_min hex hk
    by_contra hc
    exact this ⟨by omega, not_lt.1 hc⟩
  have hk0pos : k0 ≠ 0 := by
    intro h0
    rw [h0, hz] at hk0s
    linarith
  have hlastk : N1 m < k0 := by
    by_contra hc
    obtain ⟨m', rfl⟩ := Nat.exists_eq_add_of_le' hm
    have h2 := n5 m' (by omega) k0 (not_lt.1 hc)
    have h3 := hord m' (by omega)
    linarith
  obtain ⟨k1, hk1⟩ := Nat.exists_eq_succ_of_ne_zero hk0pos
  have ht1 := hbefore k1 (by omega)
  have hnx := (S 0).next k1 (by omega)
  have hst := ((S 0).step k1 (by omega)).2
  have hk0t : t k0 ≤ s m + η / 2 := by
    rw [hk1, Nat.succ_eq_add_one, hnx]
    linarith
  have hside : ψ m (x k0) ≤ 0 := by
    have hnz : h k1 ≠ 0 := by
      intro h0
      rw [hk1, Nat.succ_eq_add_one, hnx, h0] at hk0s
      linarith
    have h2 := (n3 m le_rfl k1 (by omega) (by omega) (fun hh => absurd hh (lt_irrefl _))
      (by linarith)).resolve_left hnz 0 hn
    have h3 := ((S m).first k1 (by omega) 0 hn (by rw [h2]; exact one_ne_zero)).2
    rw [hk1]
    exact h3
  have herr : ‖x k0 - φ m (t k0)‖ ≤ E0 := by
    refine n6 k0 hk0M (by linarith) m le_rfl (fun q' hq' => ?_) fun hh => absurd hh (lt_irrefl _)
    have := hord q' hq'
    linarith
  have hstep : c1 * (‖x k0 - φ m (t k0)‖ + H ^ n + δ) ≤ E := by
    have h2 : ‖x k0 - φ m (t k0)‖ + H ^ n + δ ≤ E0 + e := by linarith
    refine (mul_le_mul_of_nonneg_left h2 (by linarith)).trans ?_
    rw [hEs, mul_add]
    nlinarith
  obtain ⟨N', p0, p1, p2, p3, p4, p5, p6⟩ := (S m).slidesAt hn ho hδ0 hA hB (hL m) (hL (m + 1)) hL0 hH0 hH hreg hmid
    hk0M hk0s (by linarith) Z hTe hr hη hside hstep hE1 hE2
  refine ⟨fun q => if q ≤ m then N1 q else N', by simp [n1], ?_, ?_, ?_, ?_, ?_, ?_⟩
  · intro q hq
    rcases Nat.lt_or_eq_of_le hq with hq' | rfl
    · simpa [hq'.le, Nat.succ_le_of_lt hq'] using n2 q hq'
    · simp [p1]
      omega
  · intro q hq k h2 h3
    rcases Nat.lt_or_eq_of_le hq with hq' | rfl
    · simp only [hq'.le, Nat.succ_le_of_lt hq', if_true] at h2 h3
      exact inner q hq' k h2 h3
    · simp at h2 h3
      rcases Nat.lt_or_ge k k0 with hkk | hkk
      · exact n3 q le_rfl k h2 (by omega) (fun hh => absurd hh (lt_irrefl _)) (by linarith [hbefore k hkk])
      · exact p2 k hkk h3
  · intro h2 k h3 h4 h5
    simp at h2 h3
    exact p3 h2 k h3 h4 h5
  · intro q hq h2
    rcases Nat.lt_or_eq_of_le hq with hq' | rfl
    · simp only [Nat.succ_le_of_lt hq', if_true] at h2 ⊢
      exact (n4 q hq' h2).trans hb0
    · simp at h2 ⊢
      exact p4 h2
  · intro q hq k h2
    rcases Nat.lt_or_eq_of_le hq with hq' | rfl
    · simp only [Nat.succ_le_of_lt hq', if_true] at h2
      have := n5 q hq' k h2
      linarith
    · simp at h2
      rcases Nat.lt_or_ge k k0 with hkk | hkk
      · have := hbefore k hkk
        linarith
      · exact p5 k hkk h2
  · intro k hk h2 q hq h3 h4
    rcases Nat.lt_or_ge k k0 with hkk | hkk
    · exact early k hk (hbefore k hkk) q hq h3 h4
    have h5 := tmono' k0 k hkk hk
    have h6 := p6 k hkk hk h2
    rcases Nat.lt_or_ge q m with hqm | hqm
    · have := h4 (by omega)
      have := hord q hqm
      linarith
    · rcases Nat.lt_or_ge m q with hq' | hq'
      · obtain rfl : q = m + 1 := by omega
        rwa [if_neg (not_le.2 (h3 m (by omega)))] at h6
      · obtain rfl : q = m := by omega
        rwa [if_pos (h4 (by omega))] at h6

end
end Nosnoc
