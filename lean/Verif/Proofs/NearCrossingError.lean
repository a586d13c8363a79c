import Verif.Proofs.NearCrossing
/-
The error of switching Runge-Kutta steps with a tolerance along a trajectory that crosses a surface.
-/
namespace Nosnoc
open Finset

section
variable {V : Type*} [NormedAddCommGroup V] [NormedSpace ℝ V]
variable {n : Nat} {a : Nat → Nat → ℝ} {b bw c : Nat → ℝ} {fA fB : V → V} {ψ : V → ℝ} {H ω κ : ℝ} {M : Nat}
  {x : Nat → V} {t h : Nat → ℝ} {X K : Nat → Nat → V} {w : Nat → Nat → ℝ} {A L D δ : ℝ}

/-- The constants of crossings up to a tolerance: switching time before, time and place of the switch, error after the
switch, switching time after. -/
noncomputable def nearTime (n : Nat) (A L D T α Lψ : ℝ) : ℝ := (Lψ * smoothConst n A L D T + 1) / α
noncomputable def nearSpan (n : Nat) (A L D T α Lψ g : ℝ) : ℝ := nearTime n A L D T α Lψ + 2 / g
noncomputable def nearPlace (n : Nat) (A L D T α Lψ vel g : ℝ) : ℝ :=
  smoothConst n A L D T + |D| * nearTime n A L D T α Lψ + 4 * A * vel / g
noncomputable def nearAfter (n : Nat) (A L D T α Lψ vel g : ℝ) : ℝ :=
  smoothConst n A L D T * (nearPlace n A L D T α Lψ vel g + |D| * nearSpan n A L D T α Lψ g + 1)
noncomputable def nearConst (n : Nat) (A L D T α Lψ vel g : ℝ) : ℝ :=
  2 * nearAfter n A L D T α Lψ vel g + nearPlace n A L D T α Lψ vel g
    + (1 + 2 * |D|) * (nearSpan n A L D T α Lψ g + (Lψ * nearAfter n A L D T α Lψ vel g + 1) / α)

set_option maxHeartbeats 1000000 in
/-- The error along a crossing, up to a tolerance. -/
theorem NearSteps.crosses (S : NearSteps n a b bw fA fB ψ H ω κ M x t h X K w) (hn : 0 < n)
    (ho : StageOrder n a b c δ) (hδ0 : 0 ≤ δ)
    (hA : ∀ j < n, ∑ r ∈ range n, |a j r| ≤ A) (hB : ∑ r ∈ range n, |b r| ≤ A)
    (hLA : ∀ x y, ‖fA x - fA y‖ ≤ L * ‖x - y‖) (hLB : ∀ x y, ‖fB x - fB y‖ ≤ L * ‖x - y‖) (hL0 : 0 ≤ L)
    (hH0 : 0 ≤ H) (hH : H ≤ 1 / (2 * (A * L) + 1)) {φA φB : ℝ → V} {G : V →ₗ[ℝ] ℝ} {ts η T α Lψ r vel μ g W ρ : ℝ}
    (C : Crossing n D fA fB ψ φA φB G ts η T α Lψ r vel μ) (hr : 4 * A * vel * H ≤ r) (hη : H ≤ η / 2)
    (hg0 : 0 < g) (hg : 2 * g ≤ α - μ * vel)
    (gapA : ∀ s, 0 ≤ s → s ≤ ts + η → ‖fA (φA s) - fB (φA s)‖ ≤ W)
    (gapB : ∀ s, ts - η ≤ s → s ≤ T → ‖fA (φB s) - fB (φB s)‖ ≤ W)
    (hω0 : 0 ≤ ω) (hω : ω < 1 / 2) (hκ0 : 0 ≤ κ) (hκ : κ ≤ ρ) (hωW : ω * W ≤ ρ)
    {E : ℝ} (hE : E = nearConst n A L D T α Lψ vel g * (‖x 0 - φA 0‖ + H ^ n + ρ + δ))
    (hE1 : E ≤ η / 2) (hE2 : E ≤ r / 2) :
    ∃ N1 N3, N1 ≤ N3 ∧ N3 ≤ M ∧ (∀ k < N1, ∀ j < n, 1 - w k j ≤ ω) ∧
      (∀ k, N3 ≤ k → k < M → t k ≤ T → ∀ j < n, w k j ≤ ω) ∧
      (∀ k, N1 ≤ k → k ≤ N3 → N1 < M → |t k - ts| ≤ E) ∧ (∀ k ≤ N1, t k ≤ ts + E) ∧
      ∀ k ≤ M, t k ≤ T → ‖x k - if t k ≤ ts then φA (t k) else φB (t k)‖ ≤ E := by
  classical
  have hA0 : 0 ≤ A := (Finset.sum_nonneg fun _ _ => abs_nonneg _).trans hB
  have hη0 := C.eta
  have hα := C.alpha
  have hr0 := C.radius
  have hLψ := C.lipNonneg
  have hts := C.start
  have hTh := C.horizon
  have hT : 0 ≤ T := by linarith
  have hvel : 0 ≤ vel := (norm_nonneg _).trans (C.acrossA (φA ts) (by rw [sub_self, norm_zero]; exact hr0.le)).2
  have hW0 : 0 ≤ W := (norm_nonneg _).trans (gapA 0 le_rfl (by linarith))
  have hρ0 : 0 ≤ ρ := hκ0.trans hκ
  set e := ‖x 0 - φA 0‖ + H ^ n + ρ + δ with he
  have hHn : 0 ≤ H ^ n := pow_nonneg hH0 n
  have he0 : 0 ≤ e := by positivity
  have hen : H ^ n + ρ + δ ≤ e := by rw [he]; linarith [norm_nonneg (x 0 - φA 0)]
  have hκe : κ ≤ e := by linarith
  set B := smoothConst n A L D T with hBdef
  have hB1 : 1 ≤ B := smoothConst_ge hA0 hL0 hT
  set c2 := nearTime n A L D T α Lψ with hc2
  have hc20 : 0 ≤ c2 := by rw [hc2, nearTime]; positivity
  have hc2α : c2 * e * α = Lψ * (B * e) + e := by rw [hc2, nearTime, ← hBdef]; field_simp
  set c5 := nearSpan n A L D T α Lψ g with hc5
  have hc5e : c5 * e = c2 * e + 2 * e / g := by rw [hc5, nearSpan, ← hc2]; ring
  have hD0 : 0 ≤ |D| := abs_nonneg D
  set c6 := nearPlace n A L D T α Lψ vel g with hc6
  have hc6e : c6 * e = B * e + |D| * (c2 * e) + 2 * A * vel * (2 * e / g) := by
    rw [hc6, nearPlace, ← hc2, ← hBdef]; ring
  have hge : 0 ≤ 2 * e / g := by positivity
  have hgg : g * (2 * e / g) = 2 * e := by field_simp
  have hAv : 0 ≤ 2 * A * vel := by positivity
  set c3 := nearAfter n A L D T α Lψ vel g with hc3
  have hc3e : c3 * e = B * (c6 * e + |D| * (c5 * e) + e) := by
    rw [hc3, nearAfter, ← hc5, ← hc6, ← hBdef]; ring
  set c4 := (Lψ * c3 + 1) / α with hc4
  have hc4α : c4 * e * α = Lψ * (c3 * e) + e := by rw [hc4]; field_simp
  have hEe : E = 2 * (c3 * e) + c6 * e + (c5 * e + c4 * e) + 2 * (|D| * (c5 * e)) + 2 * (|D| * (c4 * e)) := by
    rw [hE, nearConst, ← hc3, ← hc5, ← hc6, ← hc4]; ring
  have hBe0 : 0 ≤ B * e := by positivity
  have hc2e : 0 ≤ c2 * e := mul_nonneg hc20 he0
  have hc5e0 : 0 ≤ c5 * e := by rw [hc5e]; linarith
  have hc25 : c2 * e ≤ c5 * e := by rw [hc5e]; linarith
  have hDc2 : 0 ≤ |D| * (c2 * e) := mul_nonneg hD0 hc2e
  have hDc5 : 0 ≤ |D| * (c5 * e) := mul_nonneg hD0 hc5e0
  have hDc25 : |D| * (c2 * e) ≤ |D| * (c5 * e) := mul_le_mul_of_nonneg_left hc25 hD0
  have hstep0 : 0 ≤ 2 * A * vel * (2 * e / g) := mul_nonneg hAv hge
  have hc6e0 : 0 ≤ c6 * e := by rw [hc6e]; linarith
  have hBc6 : B * e + |D| * (c2 * e) ≤ c6 * e := by rw [hc6e]; linarith
  have hs0 : 0 ≤ c6 * e + |D| * (c5 * e) + e := by linarith
  have hc3ge : c6 * e + |D| * (c5 * e) + e ≤ c3 * e := by
    rw [hc3e]
    exact le_mul_of_one_le_left hs0 hB1
  have hc3e0 : 0 ≤ c3 * e := by linarith
  have hc4e0 : 0 ≤ c4 * e := by
    have h0 : 0 ≤ c4 * e * α := by rw [hc4α]; positivity
    exact nonneg_of_mul_nonneg_left h0 hα
  have hc24 : c2 * e ≤ c4 * e := by
    have h0 : c2 * e * α ≤ c4 * e * α := by
      rw [hc2α, hc4α]
      have : Lψ * (B * e) ≤ Lψ * (c3 * e) := mul_le_mul_of_nonneg_left (by linarith) hLψ
      linarith
    exact le_of_mul_le_mul_right h0 hα
  have hDc4 : 0 ≤ |D| * (c4 * e) := mul_nonneg hD0 hc4e0
  have bound : ∀ {t0 e0 : ℝ}, 0 ≤ e0 → 0 ≤ t0 → t0 ≤ T →
      Real.exp (2 * A * L * t0) * (e0 + t0 * (|D| * ((1 + A) * H ^ n + n * δ) + A * ρ))
        ≤ B * (e0 + H ^ n + ρ + δ) := by
    intro t0 e0 h1 h2 h3
    exact bound_constant (n := n) (D := D) (η := ρ) hA0 hL0 hδ0 hρ0 hH0 h1 h2 h3
  clear_value c4 c3 c6 c5 c2 B e
  -- the speed of the two solutions
  have spA : ∀ s ∈ Set.Icc (0 : ℝ) (ts + η), ‖φA s - φA ts‖ ≤ |D| * |s - ts| := fun s hs =>
    (C.before.speed ⟨hts, by linarith⟩ hs).trans (mul_le_mul_of_nonneg_right (le_abs_self D) (abs_nonneg _))
  have spB : ∀ s ∈ Set.Icc (ts - η) T, ‖φB s - φB ts‖ ≤ |D| * |s - ts| := fun s hs =>
    (C.after.speed ⟨by linarith, by linarith⟩ hs).trans (mul_le_mul_of_nonneg_right (le_abs_self D) (abs_nonneg _))
  -- the error over a segment
  have seg : ∀ {f : V → V} {φ : ℝ → V} {s0 s1 : ℝ} {k0 i : Nat},
      SmoothSolution n D f φ s0 s1 → s0 ≤ t k0 → k0 + i ≤ M → t (k0 + i) ≤ s1 → t (k0 + i) - t k0 ≤ T →
      (∀ k, k0 ≤ k → k < k0 + i → ∀ j < n, ∀ s, s0 ≤ s → s ≤ s1 → ‖K k j - f (φ s)‖ ≤ L * ‖X k j - φ s‖ + ρ) →
      ‖x (k0 + i) - φ (t (k0 + i))‖ ≤ B * (‖x k0 - φ (t k0)‖ + H ^ n + ρ + δ) := by
    intro f φ s0 s1 k0 i hs h0 hM h1 hlen hf
    obtain ⟨u1, u2⟩ := S.segment hn ho hδ0 hA hB hL0 hH hρ0 hs h0 i hM h1 hf
    exact u2.trans (bound (norm_nonneg _) (sub_nonneg.2 u1) hlen)
  have tmono : ∀ k, ∀ i, k + i ≤ M → t k ≤ t (k + i) := by
    intro k i
    induction i with
    | zero => intro _; simp
    | succ i ih =>
      intro hM
      have h1 := ih (by omega)
      have h2 := S.next (k + i) (by omega)
      have h3 := (S.step (k + i) (by omega)).1
      rw [← Nat.add_assoc, h2]
      linarith
  have tnn : ∀ k ≤ M, 0 ≤ t k := by
    intro k hk
    have := tmono 0 k (by omega)
    rwa [S.zero, Nat.zero_add] at this
  -- the first phase
  have phaseA : ∀ k ≤ M, (∀ i < k, ∀ j < n, 1 - w i j ≤ ω) →
      t k ≤ ts + c2 * e ∧ ‖x k - φA (t k)‖ ≤ B * e := by
    intro k
    induction k with
    | zero =>
      intro _ _
      rw [S.zero]
      refine ⟨by linarith, ?_⟩
      have h1 : ‖x 0 - φA 0‖ ≤ e := by rw [he]; linarith
      exact h1.trans (le_mul_of_one_le_left he0 hB1)
    | succ k ih =>
      intro hk hw
      obtain ⟨i1, -⟩ := ih (by omega) fun i hi => hw i (by omega)
      have hnx := S.next k (by omega)
      have hst := S.step k (by omega)
      have htk : t (k + 1) ≤ ts + η := by rw [hnx]; linarith
      have err := seg (f := fA) (k0 := 0) (i := k + 1) C.before (by rw [S.zero])
        (by omega) (by rw [Nat.zero_add]; exact htk) (by rw [Nat.zero_add, S.zero]; linarith)
        fun i _ hi j hj s s0 s1 => by
          obtain ⟨w0, w1⟩ := S.weight i (by omega) j hj
          rw [S.slope i (by omega) j hj]
          refine (convex_slope hLA hLB w0 w1 _ _).1.trans (add_le_add le_rfl (le_trans ?_ hωW))
          exact mul_le_mul (hw i (by omega) j hj) (gapA s s0 s1) (norm_nonneg _) hω0
      rw [Nat.zero_add, S.zero, ← he] at err
      refine ⟨?_, err⟩
      by_contra hc
      rw [not_le] at hc
      have h0 := (S.first k (by omega) 0 hn (by have := hw k (by omega) 0 hn; linarith)).2
      have h1 := C.lipA (t (k + 1)) (x (k + 1)) (tnn _ hk) htk (by linarith)
      have h2 := C.above (t (k + 1)) (by linarith) htk
      have h3 := (abs_le.1 h1).1
      have h4 : Lψ * ‖x (k + 1) - φA (t (k + 1))‖ ≤ Lψ * (B * e) := mul_le_mul_of_nonneg_left err hLψ
      have h6 : c2 * e * α < (t (k + 1) - ts) * α := mul_lt_mul_of_pos_right (by linarith) hα
      linarith
  -- near the crossing time the two solutions are close
  have close : ∀ s d, 0 ≤ s → s ≤ T → d ≤ η → |s - ts| ≤ d → ‖φA s - φB s‖ ≤ 2 * (|D| * d) := by
    intro s d hs0 hsT hd hs
    have hs' := abs_le.1 hs
    have q1 := spA s ⟨hs0, by linarith⟩
    have q2 := spB s ⟨by linarith, hsT⟩
    have q3 : |D| * |s - ts| ≤ |D| * d := mul_le_mul_of_nonneg_left hs hD0
    have : φA s - φB s = (φA s - φA ts) - (φB s - φB ts) := by rw [C.meet]; abel
    rw [this]
    refine (norm_sub_le _ _).trans ?_
    linarith
  have early : ∀ N ≤ M, (∀ i < N, ∀ j < n, 1 - w i j ≤ ω) → ∀ k ≤ N, t k ≤ T →
      ‖x k - if t k ≤ ts then φA (t k) else φB (t k)‖ ≤ E := by
    intro N hN hw k hk hkT
    obtain ⟨p1, p2⟩ := phaseA k (by omega) fun i hi => hw i (by omega)
    split
    · linarith
    · rename_i hgt
      rw [not_le] at hgt
      have h1 := close (t k) (c2 * e) (tnn k (by omega)) hkT (by linarith) (by rw [abs_of_pos (by linarith)]; linarith)
      have : x k - φB (t k) = (x k - φA (t k)) + (φA (t k) - φB (t k)) := by abel
      rw [this]
      refine (norm_add_le _ _).trans ?_
      linarith
  by_cases hall : ∀ k < M, ∀ j < n, 1 - w k j ≤ ω
  · refine ⟨M, M, le_rfl, le_rfl, hall, fun k h1 h2 => absurd h2 (by omega), fun k _ _ h => absurd h (lt_irrefl _), ?_,
      early M le_rfl hall⟩
    intro k hk
    have := (phaseA k hk fun i hi => hall i (by omega)).1
    linarith
  -- the first element that is not in the first region
  have hex : ∃ k, k < M ∧ ∃ j < n, ω < 1 - w k j := by
    by_contra hc
    refine hall fun k hk j hj => ?_
    by_contra hne
    exact hc ⟨k, hk, j, hj, not_le.1 hne⟩
  set N1 := Nat.find hex with hN1
  obtain ⟨hN1M, j1, hj1, hw1⟩ := Nat.find_spec hex
  rw [← hN1] at hN1M hw1
  have hfirst : ∀ k < N1, ∀ j < n, 1 - w k j ≤ ω := by
    intro k hk j hj
    by_contra hne
    exact Nat.find_min hex hk ⟨by omega, j, hj, not_le.1 hne⟩
  obtain ⟨pA1, pA2⟩ := phaseA N1 hN1M.le hfirst
  have ht1 := tnn N1 hN1M.le
  have hψ1 : -κ ≤ ψ (x N1) := (S.second N1 hN1M j1 hj1 hw1).1
  have hlow : ts - c2 * e ≤ t N1 := by
    by_contra hc
    rw [not_le] at hc
    have h1 := C.lipA (t N1) (x N1) ht1 (by linarith) (by linarith)
    have h2 := C.below (t N1) ht1 (by linarith)
    have h3 := (abs_le.1 h1).2
    have h4 : Lψ * ‖x N1 - φA (t N1)‖ ≤ Lψ * (B * e) := mul_le_mul_of_nonneg_left pA2 hLψ
    have h6 : c2 * e * α < (ts - t N1) * α := mul_lt_mul_of_pos_right (by linarith) hα
    linarith
  have place1 : ‖x N1 - φA ts‖ ≤ B * e + |D| * (c2 * e) := by
    have q1 := spA (t N1) ⟨ht1, by linarith⟩
    have q3 : |D| * |t N1 - ts| ≤ |D| * (c2 * e) :=
      mul_le_mul_of_nonneg_left (abs_le.2 ⟨by linarith, by linarith⟩) hD0
    have : x N1 - φA ts = (x N1 - φA (t N1)) + (φA (t N1) - φA ts) := by abel
    rw [this]
    refine (norm_add_le _ _).trans ?_
    linarith
  -- the phase between the regions
  have stayed : ∀ k, N1 ≤ k → k ≤ M → g * (t k - t N1) ≤ ψ (x k) + κ → ‖x k - x N1‖ ≤ 2 * A * vel * (t k - t N1) →
      ψ (x k) ≤ κ → |t k - ts| ≤ c5 * e ∧ ‖x k - φA ts‖ ≤ c6 * e := by
    intro k hk hkM h1 h2 h3
    have htk : t N1 ≤ t k := by
      have := tmono N1 (k - N1) (by omega)
      rwa [Nat.add_sub_cancel' hk] at this
    have h4 : t k - t N1 ≤ 2 * e / g := by
      have : g * (t k - t N1) ≤ g * (2 * e / g) := by rw [hgg]; linarith
      exact le_of_mul_le_mul_left this hg0
    have h5 : 2 * A * vel * (t k - t N1) ≤ 2 * A * vel * (2 * e / g) := mul_le_mul_of_nonneg_left h4 hAv
    refine ⟨abs_le.2 ⟨by linarith, by linarith⟩, ?_⟩
    have : x k - φA ts = (x k - x N1) + (x N1 - φA ts) := by abel
    rw [this]
    refine (norm_add_le _ _).trans ?_
    linarith
  have stay : ∀ i, N1 + i ≤ M → (∀ k, N1 ≤ k → k < N1 + i → ψ (x k) ≤ κ) →
      g * (t (N1 + i) - t N1) ≤ ψ (x (N1 + i)) + κ ∧
      ‖x (N1 + i) - x N1‖ ≤ 2 * A * vel * (t (N1 + i) - t N1) := by
    intro i
    induction i with
    | zero =>
      intro _ _
      rw [Nat.add_zero, sub_self, mul_zero, sub_self, norm_zero, mul_zero]
      exact ⟨by linarith, le_rfl⟩
    | succ i ih =>
      intro hM hle
      obtain ⟨i1, i2⟩ := ih (by omega) fun k h1 h2 => hle k h1 (by omega)
      obtain ⟨-, i4⟩ := stayed (N1 + i) (by omega) (by omega) i1 i2 (hle _ (by omega) (by omega))
      obtain ⟨r1, r2⟩ := S.rise hn hA hB hLA hLB hL0 hH C hr hg (k := N1 + i) (by omega) (by linarith)
      rw [← Nat.add_assoc, S.next (N1 + i) (by omega)]
      refine ⟨by linarith, ?_⟩
      have : x (N1 + i + 1) - x N1 = (x (N1 + i + 1) - x (N1 + i)) + (x (N1 + i) - x N1) := by abel
      rw [this]
      refine (norm_add_le _ _).trans ?_
      linarith
  -- the position from which the second field is used
  obtain ⟨N3, hN13, hN3M, hbelow, hnext⟩ : ∃ N3, N1 ≤ N3 ∧ N3 ≤ M ∧ (∀ k, N1 ≤ k → k < N3 → ψ (x k) ≤ κ) ∧
      ((N3 = N1 ∧ κ < ψ (x N3)) ∨ (ψ (x N3) ≤ κ ∧ (N3 < M → κ < ψ (x (N3 + 1))))) := by
    by_cases hx2 : ∃ k, N1 ≤ k ∧ k ≤ M ∧ κ < ψ (x k)
    · set N2 := Nat.find hx2 with hN2
      obtain ⟨u1, u2, u3⟩ := Nat.find_spec hx2
      rw [← hN2] at u1 u2 u3
      have umin : ∀ k, N1 ≤ k → k < N2 → ψ (x k) ≤ κ := by
        intro k h1 h2
        by_contra hc
        exact Nat.find_min hx2 h2 ⟨h1, by omega, not_le.1 hc⟩
      rcases Nat.eq_or_lt_of_le u1 with heq | hlt
      · exact ⟨N1, le_rfl, hN1M.le, fun k h1 h2 => absurd h2 (by omega), .inl ⟨rfl, by rw [heq]; exact u3⟩⟩
      · refine ⟨N2 - 1, by omega, by omega, fun k h1 h2 => umin k h1 (by omega), .inr ⟨umin _ (by omega) (by omega), ?_⟩⟩
        intro _
        rw [Nat.sub_add_cancel (by omega)]
        exact u3
    · refine ⟨M, hN1M.le, le_rfl, fun k h1 h2 => ?_, .inr ⟨?_, fun h => absurd h (lt_irrefl _)⟩⟩
      · by_contra hc
        exact hx2 ⟨k, h1, h2.le, not_le.1 hc⟩
      · by_contra hc
        exact hx2 ⟨M, hN1M.le, le_rfl, not_le.1 hc⟩
  have mid : ∀ k, N1 ≤ k → k ≤ N3 → |t k - ts| ≤ c5 * e ∧ ‖x k - φA ts‖ ≤ c6 * e := by
    intro k h1 h2
    by_cases hle : ψ (x k) ≤ κ
    · obtain ⟨i, rfl⟩ := Nat.exists_eq_add_of_le h1
      obtain ⟨s1, s2⟩ := stay i (by omega) fun k h3 h4 => hbelow k h3 (by omega)
      exact stayed _ h1 (by omega) s1 s2 hle
    · have hk : k = N1 := by
        rcases Nat.lt_or_eq_of_le h2 with h3 | h3
        · exact absurd (hbelow k h1 h3) hle
        · rcases hnext with ⟨h4, -⟩ | ⟨h4, -⟩
          · omega
          · rw [← h3] at h4; exact absurd h4 hle
      subst hk
      exact ⟨abs_le.2 ⟨by linarith, by linarith⟩, by linarith⟩
  obtain ⟨m1, m2⟩ := mid N3 hN13 le_rfl
  have m1' := abs_le.1 m1
  have tT3 : t N3 ≤ T := by linarith
  have xB : ‖x N3 - φB (t N3)‖ ≤ c6 * e + |D| * (c5 * e) := by
    have q2 := spB (t N3) ⟨by linarith, tT3⟩
    have q3 : |D| * |t N3 - ts| ≤ |D| * (c5 * e) := mul_le_mul_of_nonneg_left m1 hD0
    have : x N3 - φB (t N3) = (x N3 - φA ts) - (φB (t N3) - φB ts) := by rw [C.meet]; abel
    rw [this]
    refine (norm_sub_le _ _).trans ?_
    linarith
  have typeB : ∀ k < M, κ < ψ (x k) ∨ κ < ψ (x (k + 1)) → ∀ j < n, w k j ≤ ω := by
    intro k hk hψ j hj
    by_contra hc
    obtain ⟨f1, f2⟩ := S.first k hk j hj (not_le.1 hc)
    rcases hψ with h | h <;> linarith
  -- the second phase
  have phaseB : ∀ i, N3 + i ≤ M → t (N3 + i) ≤ T → (∀ k, N3 ≤ k → k < N3 + i → ∀ j < n, w k j ≤ ω) ∧
      (κ < ψ (x (N3 + i)) ∨ (i = 0 ∧ (N3 < M → κ < ψ (x (N3 + 1))))) ∧
      ‖x (N3 + i) - φB (t (N3 + i))‖ ≤ c3 * e := by
    intro i
    induction i with
    | zero =>
      intro _ _
      refine ⟨fun k h1 h2 => absurd h2 (by omega), ?_, ?_⟩
      · rcases hnext with ⟨h1, h2⟩ | ⟨-, h2⟩
        · exact .inl h2
        · exact .inr ⟨rfl, h2⟩
      rw [Nat.add_zero]
      linarith
    | succ i ih =>
      intro hM hiT
      have hnx := S.next (N3 + i) (by omega)
      have hst := S.step (N3 + i) (by omega)
      rw [← Nat.add_assoc] at hM hiT ⊢
      have hiT' : t (N3 + i) ≤ T := by rw [hnx] at hiT; linarith
      obtain ⟨i1, i2, i3⟩ := ih (by omega) hiT'
      have hlast : ∀ j < n, w (N3 + i) j ≤ ω := by
        refine typeB (N3 + i) (by omega) ?_
        rcases i2 with h1 | ⟨rfl, h1⟩
        · exact .inl h1
        · exact .inr (h1 (by omega))
      have hall' : ∀ k, N3 ≤ k → k < N3 + i + 1 → ∀ j < n, w k j ≤ ω := by
        intro k h1 h2
        rcases Nat.lt_succ_iff_lt_or_eq.1 h2 with h3 | rfl
        · exact i1 k h1 h3
        · exact hlast
      have err := seg (f := fB) (k0 := N3) (i := i + 1) C.after (by linarith) (by omega)
        (by rw [← Nat.add_assoc]; exact hiT) (by rw [← Nat.add_assoc]; have := tnn N3 hN3M; linarith)
        fun k h1 h2 j hj s s0 s1 => by
          obtain ⟨w0, w1⟩ := S.weight k (by omega) j hj
          rw [S.slope k (by omega) j hj]
          refine (convex_slope hLA hLB w0 w1 _ _).2.trans (add_le_add le_rfl (le_trans ?_ hωW))
          exact mul_le_mul (hall' k h1 (by omega) j hj) (gapB s s0 s1) (norm_nonneg _) hω0
      rw [← Nat.add_assoc] at err
      have err' : ‖x (N3 + i + 1) - φB (t (N3 + i + 1))‖ ≤ c3 * e := by
        refine err.trans ?_
        rw [hc3e]
        exact mul_le_mul_of_nonneg_left (by linarith) (by linarith)
      refine ⟨hall', .inl ?_, err'⟩
      rcases i2 with hin | ⟨rfl, h1⟩
      swap
      · exact h1 (by omega)
      by_contra hc
      rw [not_lt] at hc
      have htk : t N3 ≤ t (N3 + i) := tmono N3 i (by omega)
      have hlate : t (N3 + i + 1) - ts ≤ c4 * e := by
        rcases le_total (t (N3 + i + 1)) ts with hle | hge'
        · linarith
        · have h1 := C.lipB _ (x (N3 + i + 1)) hge' hiT (by linarith)
          have h2 := C.away _ hge' hiT
          have h3 := (abs_le.1 h1).1
          have h4 : Lψ * ‖x (N3 + i + 1) - φB (t (N3 + i + 1))‖ ≤ Lψ * (c3 * e) :=
            mul_le_mul_of_nonneg_left err' hLψ
          have h6 : min (t (N3 + i + 1) - ts) η * α ≤ c4 * e * α := by linarith
          have h7 := le_of_mul_le_mul_right h6 hα
          rcases min_le_iff.1 h7 with h8 | h8
          · exact h8
          · linarith
      have hd : |t (N3 + i) - ts| ≤ c5 * e + c4 * e := abs_le.2 ⟨by linarith, by linarith⟩
      have q2 := spB (t (N3 + i)) ⟨by linarith, hiT'⟩
      have q3 : |D| * |t (N3 + i) - ts| ≤ |D| * (c5 * e + c4 * e) := mul_le_mul_of_nonneg_left hd hD0
      have q4 : |D| * (c5 * e + c4 * e) = |D| * (c5 * e) + |D| * (c4 * e) := by ring
      have hball : ‖x (N3 + i) - φA ts‖ ≤ r / 2 := by
        have : x (N3 + i) - φA ts = (x (N3 + i) - φB (t (N3 + i))) + (φB (t (N3 + i)) - φB ts) := by
          rw [C.meet]; abel
        rw [this]
        refine (norm_add_le _ _).trans ?_
        linarith
      have r1 := (S.rise hn hA hB hLA hLB hL0 hH C hr hg (k := N3 + i) (by omega) hball).1
      have := mul_nonneg hg0.le hst.1
      linarith
  refine ⟨N1, N3, hN13, hN3M, hfirst, ?_, ?_, ?_, ?_⟩
  · intro k hk hkM hkT
    obtain ⟨i, rfl⟩ := Nat.exists_eq_add_of_le hk
    obtain ⟨-, p2, -⟩ := phaseB i hkM.le hkT
    refine typeB _ hkM ?_
    rcases p2 with h1 | ⟨rfl, h1⟩
    · exact .inl h1
    · exact .inr (h1 (by omega))
  · intro k h1 h2 _
    have := (mid k h1 h2).1
    linarith
  · intro k hk
    have := (phaseA k (by omega) fun i hi => hfirst i (by omega)).1
    linarith
  · intro k hkM hkT
    rcases le_or_gt k N1 with hk | hk
    · exact early N1 hN1M.le hfirst k hk hkT
    rcases le_or_gt k N3 with hk3 | hk3
    · obtain ⟨p1, p2⟩ := mid k hk.le hk3
      have p1' := abs_le.1 p1
      have q3 : |D| * |t k - ts| ≤ |D| * (c5 * e) := mul_le_mul_of_nonneg_left p1 hD0
      split
      · have q1 := spA (t k) ⟨tnn k hkM, by linarith⟩
        have : x k - φA (t k) = (x k - φA ts) - (φA (t k) - φA ts) := by abel
        rw [this]
        refine (norm_sub_le _ _).trans ?_
        linarith
      · have q1 := spB (t k) ⟨by linarith, hkT⟩
        have : x k - φB (t k) = (x k - φA ts) - (φB (t k) - φB ts) := by rw [C.meet]; abel
        rw [this]
        refine (norm_sub_le _ _).trans ?_
        linarith
    · obtain ⟨i, rfl⟩ := Nat.exists_eq_add_of_le hk3.le
      obtain ⟨-, -, p3⟩ := phaseB i hkM hkT
      split
      · rename_i hle
        have := tmono N3 i hkM
        have h1 := close (t (N3 + i)) (c5 * e) (tnn _ hkM) hkT (by linarith)
          (by rw [abs_le]; constructor <;> linarith)
        have : x (N3 + i) - φA (t (N3 + i)) = (x (N3 + i) - φB (t (N3 + i)))
            - (φA (t (N3 + i)) - φB (t (N3 + i))) := by abel
        rw [this]
        refine (norm_sub_le _ _).trans ?_
        linarith
      · linarith

end
end Nosnoc
