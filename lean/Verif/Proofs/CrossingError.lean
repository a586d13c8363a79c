import Verif.Proofs.Crossing
import Verif.Props.Converge
/-
The error of switching Runge-Kutta steps along a trajectory that crosses a surface.
-/
namespace Nosnoc
open Finset

section
variable {V : Type*} [NormedAddCommGroup V] [NormedSpace ℝ V]
variable {n : Nat} {a : Nat → Nat → ℝ} {b bw c : Nat → ℝ} {fA fB : V → V} {ψ : V → ℝ} {H : ℝ} {M : Nat}
  {x : Nat → V} {t h : Nat → ℝ} {X K : Nat → Nat → V} {w : Nat → Nat → ℝ} {A L D δ : ℝ}

/-- The error constant of smooth problems. -/
noncomputable def smoothConst (n : Nat) (A L D T : ℝ) : ℝ :=
  Real.exp (2 * A * L * T) * (1 + T * (|D| * (1 + A + n) + A))

/-- The error constant after a crossing. -/
noncomputable def afterConst (n : Nat) (A L D T α Lψ : ℝ) : ℝ :=
  smoothConst n A L D T * (smoothConst n A L D T + 2 * |D| * (Lψ * smoothConst n A L D T / α) + 1)

/-- The error constant of crossings. -/
noncomputable def crossConst (n : Nat) (A L D T α Lψ : ℝ) : ℝ :=
  2 * afterConst n A L D T α Lψ + (1 + 2 * |D|) * (Lψ * afterConst n A L D T α Lψ / α)

theorem smoothConst_ge {T : ℝ} (hA : 0 ≤ A) (hL : 0 ≤ L) (hT : 0 ≤ T) : 1 ≤ smoothConst n A L D T := by
  unfold smoothConst
  have h1 : 1 ≤ Real.exp (2 * A * L * T) := Real.one_le_exp (by positivity)
  have h2 : 0 ≤ T * (|D| * (1 + A + n) + A) := by positivity
  nlinarith

set_option maxHeartbeats 1000000 in
/-- The error along a crossing. -/
theorem SwitchSteps.crosses (S : SwitchSteps n a b bw fA fB ψ H M x t h X K w) (hn : 0 < n)
    (ho : StageOrder n a b c δ) (hδ0 : 0 ≤ δ)
    (hA : ∀ j < n, ∑ r ∈ range n, |a j r| ≤ A) (hB : ∑ r ∈ range n, |b r| ≤ A)
    (hLA : ∀ x y, ‖fA x - fA y‖ ≤ L * ‖x - y‖) (hLB : ∀ x y, ‖fB x - fB y‖ ≤ L * ‖x - y‖) (hL0 : 0 ≤ L)
    (hH0 : 0 ≤ H) (hH : H ≤ 1 / (2 * (A * L) + 1)) {φA φB : ℝ → V} {G : V →ₗ[ℝ] ℝ} {ts η T α Lψ r vel μ : ℝ}
    (C : Crossing n D fA fB ψ φA φB G ts η T α Lψ r vel μ) (hr : 4 * A * vel * H ≤ r) (hη : H ≤ η / 2)
    {E : ℝ} (hE : E = crossConst n A L D T α Lψ * (‖x 0 - φA 0‖ + H ^ n + δ))
    (hE1 : E ≤ η / 2) (hE2 : E ≤ r / 2) :
    ∃ N1 ≤ M, (∀ k < N1, h k = 0 ∨ ∀ j < n, w k j = 1) ∧
      (∀ k, N1 ≤ k → k < M → t k ≤ T → h k = 0 ∨ ∀ j < n, w k j = 0) ∧
      (N1 < M → |t N1 - ts| ≤ E) ∧ (∀ k ≤ N1, t k ≤ ts + E) ∧
      ∀ k ≤ M, t k ≤ T → ‖x k - if t k ≤ ts then φA (t k) else φB (t k)‖ ≤ E := by
  classical
  have hA0 : 0 ≤ A := (Finset.sum_nonneg fun _ _ => abs_nonneg _).trans hB
  have hη0 := C.eta
  have hα := C.alpha
  have hr0 := C.radius
  have hLψ := C.lipNonneg
  have hts := C.start
  have hTh := C.horizon
  have hT : 0 ≤ T := by linarith
  set e := ‖x 0 - φA 0‖ + H ^ n + δ with he
  have he0 : 0 ≤ e := by positivity
  have hen : H ^ n + δ ≤ e := by rw [he]; linarith [norm_nonneg (x 0 - φA 0)]
  set B := smoothConst n A L D T with hBdef
  have hB1 : 1 ≤ B := smoothConst_ge hA0 hL0 hT
  set c2 := Lψ * B / α with hc2
  have hc20 : 0 ≤ c2 := by positivity
  set c3 := B * (B + 2 * |D| * c2 + 1) with hc3
  have hD0 : 0 ≤ |D| := abs_nonneg D
  have hBc3 : B + 2 * |D| * c2 + 1 ≤ c3 := by rw [hc3]; nlinarith [mul_nonneg hD0 hc20]
  set c4 := Lψ * c3 / α with hc4
  have hc24 : c2 ≤ c4 := by
    rw [hc2, hc4]
    refine div_le_div_of_nonneg_right (mul_le_mul_of_nonneg_left ?_ hLψ) hα.le
    nlinarith [mul_nonneg hD0 hc20]
  have hEe : E = (2 * c3 + (1 + 2 * |D|) * c4) * e := hE
  have hDc2 : 0 ≤ |D| * c2 := mul_nonneg hD0 hc20
  have hDc24 : |D| * c2 ≤ |D| * c4 := mul_le_mul_of_nonneg_left hc24 hD0
  have hc3e : 0 ≤ c3 * e := by
    refine mul_nonneg ?_ he0
    nlinarith
  have hc2e : 0 ≤ c2 * e := mul_nonneg hc20 he0
  have hc24e : c2 * e ≤ c4 * e := mul_le_mul_of_nonneg_right hc24 he0
  have hD2e : 0 ≤ |D| * c2 * e := mul_nonneg hDc2 he0
  have hD24e : |D| * c2 * e ≤ |D| * c4 * e := mul_le_mul_of_nonneg_right hDc24 he0
  have hBe : B * e + 2 * (|D| * c2 * e) + e ≤ c3 * e := by
    have := mul_le_mul_of_nonneg_right hBc3 he0
    nlinarith
  have hBe0 : 0 ≤ B * e := by positivity
  have hEe' : E = 2 * (c3 * e) + c4 * e + 2 * (|D| * c4 * e) := by rw [hEe]; ring
  have hc2α : c2 * e * α = Lψ * (B * e) := by rw [hc2]; field_simp
  have hc4α : c4 * e * α = Lψ * (c3 * e) := by rw [hc4]; field_simp
  have bound : ∀ {t0 e0 : ℝ}, 0 ≤ e0 → 0 ≤ t0 → t0 ≤ T →
      Real.exp (2 * A * L * t0) * (e0 + t0 * (|D| * ((1 + A) * H ^ n + n * δ))) ≤ B * (e0 + H ^ n + δ) := by
    intro t0 e0 h1 h2 h3
    have := bound_constant (n := n) (D := D) (η := 0) hA0 hL0 hδ0 le_rfl hH0 h1 h2 h3
    rwa [mul_zero, add_zero, add_zero] at this
  clear_value c4 c3 c2 B e
  -- the speed of the two solutions
  have spA : ∀ s ∈ Set.Icc (0 : ℝ) (ts + η), ‖φA s - φA ts‖ ≤ |D| * |s - ts| := fun s hs =>
    (C.before.speed ⟨hts, by linarith⟩ hs).trans (mul_le_mul_of_nonneg_right (le_abs_self D) (abs_nonneg _))
  have spB : ∀ s ∈ Set.Icc (ts - η) T, ‖φB s - φB ts‖ ≤ |D| * |s - ts| := fun s hs =>
    (C.after.speed ⟨by linarith, by linarith⟩ hs).trans (mul_le_mul_of_nonneg_right (le_abs_self D) (abs_nonneg _))
  -- the error over a segment
  have seg : ∀ {f : V → V} {φ : ℝ → V} {s0 s1 : ℝ} {k0 i : Nat}, (∀ x y, ‖f x - f y‖ ≤ L * ‖x - y‖) →
      SmoothSolution n D f φ s0 s1 → s0 ≤ t k0 → 0 ≤ t k0 + η → k0 + i ≤ M → t (k0 + i) ≤ s1 →
      t (k0 + i) - t k0 ≤ T →
      (∀ k, k0 ≤ k → k < k0 + i → h k = 0 ∨ ∀ j < n, K k j = f (X k j)) →
      ‖x (k0 + i) - φ (t (k0 + i))‖ ≤ B * (‖x k0 - φ (t k0)‖ + H ^ n + δ) := by
    intro f φ s0 s1 k0 i hL hs h0 _ hM h1 hlen hf
    obtain ⟨u1, u2⟩ := S.segment hn ho hδ0 hA hB hL hL0 hH hs h0 i hM h1 hf
    exact u2.trans (bound (norm_nonneg _) (sub_nonneg.2 u1) hlen)
  have tmono : ∀ k, ∀ i, k + i ≤ M → t k ≤ t (k + i) := by
    intro k i
    induction i with
    | zero => intro _; simp
    | succ i ih =>
      intro hM
      have h1 := ih (by omega)
      have h2 := S.next (k + i) (by omega)
      have h3 := (S.step (k + i) (by omega)).1
      rw [← Nat.add_assoc, h2]
      linarith
  have tnn : ∀ k ≤ M, 0 ≤ t k := by
    intro k hk
    have := tmono 0 k (by omega)
    rwa [S.zero, Nat.zero_add] at this
  -- the first phase
  have phaseA : ∀ k ≤ M, (∀ i < k, h i = 0 ∨ ∀ j < n, w i j = 1) →
      t k ≤ ts + c2 * e ∧ ‖x k - φA (t k)‖ ≤ B * e := by
    intro k
    induction k with
    | zero =>
      intro _ _
      rw [S.zero]
      refine ⟨by linarith, ?_⟩
      have : ‖x 0 - φA 0‖ ≤ e := by
        have : 0 ≤ H ^ n := pow_nonneg hH0 n
        rw [he]; linarith
      nlinarith
    | succ k ih =>
      intro hk hw
      obtain ⟨i1, -⟩ := ih (by omega) fun i hi => hw i (by omega)
      have hnx := S.next k (by omega)
      have hst := S.step k (by omega)
      have htk : t (k + 1) ≤ ts + η := by rw [hnx]; linarith
      have err := seg (f := fA) (k0 := 0) (i := k + 1) hLA C.before (by rw [S.zero]) (by rw [S.zero]; linarith)
        (by omega) (by rw [Nat.zero_add]; exact htk) (by rw [Nat.zero_add, S.zero]; linarith)
        fun i _ hi => (hw i (by omega)).imp id fun hw j hj => by
          rw [S.slope i (by omega) j hj, hw j hj]
          simp
      rw [Nat.zero_add, S.zero, ← he] at err
      refine ⟨?_, err⟩
      rcases hw k (by omega) with hz | hwk
      · rw [hnx, hz, add_zero]; exact i1
      by_contra hc
      rw [not_le] at hc
      have h0 := (S.first k (by omega) 0 hn (by rw [hwk 0 hn]; exact one_ne_zero)).2
      have h1 := C.lipA (t (k + 1)) (x (k + 1)) (tnn _ hk) htk (by linarith)
      have h2 := C.above (t (k + 1)) (by linarith) htk
      have h3 := (abs_le.1 h1).1
      have h4 : Lψ * ‖x (k + 1) - φA (t (k + 1))‖ ≤ Lψ * (B * e) := mul_le_mul_of_nonneg_left err hLψ
      have h6 : c2 * e * α < (t (k + 1) - ts) * α := mul_lt_mul_of_pos_right (by linarith) hα
      linarith
  by_cases hall : ∀ k < M, h k = 0 ∨ ∀ j < n, w k j = 1
  · refine ⟨M, le_rfl, hall, fun k h1 h2 => absurd h2 (by omega), fun h => absurd h (lt_irrefl _), ?_, ?_⟩
    · intro k hk
      have := (phaseA k hk fun i hi => hall i (by omega)).1
      linarith
    · intro k hk hkT
      obtain ⟨p1, p2⟩ := phaseA k hk fun i hi => hall i (by omega)
      split
      · linarith
      · rename_i hgt
        rw [not_le] at hgt
        have q1 := spA (t k) ⟨tnn k hk, by linarith⟩
        have q2 := spB (t k) ⟨by linarith, hkT⟩
        rw [abs_of_pos (show 0 < t k - ts by linarith)] at q1 q2
        have q3 : |D| * (t k - ts) ≤ |D| * (c2 * e) := mul_le_mul_of_nonneg_left (by linarith) hD0
        have : x k - φB (t k) = (x k - φA (t k)) + (φA (t k) - φA ts) - (φB (t k) - φB ts) := by
          rw [C.meet]; abel
        rw [this]
        refine (norm_sub_le _ _).trans ?_
        have := norm_add_le (x k - φA (t k)) (φA (t k) - φA ts)
        have q4 : |D| * (c2 * e) = |D| * c2 * e := by ring
        linarith
  -- the first element that is not in the first region
  have hex : ∃ k, k < M ∧ h k ≠ 0 ∧ ∃ j < n, w k j ≠ 1 := by
    by_contra hc
    refine hall fun k hk => or_iff_not_imp_left.2 fun hz j hj => ?_
    by_contra hne
    exact hc ⟨k, hk, hz, j, hj, hne⟩
  set N1 := Nat.find hex with hN1
  obtain ⟨hN1M, -, j1, hj1, hw1⟩ := Nat.find_spec hex
  rw [← hN1] at hN1M hw1
  have hfirst : ∀ k < N1, h k = 0 ∨ ∀ j < n, w k j = 1 := by
    refine fun k hk => or_iff_not_imp_left.2 fun hz j hj => ?_
    by_contra hne
    exact Nat.find_min hex hk ⟨by omega, hz, j, hj, hne⟩
  obtain ⟨pA1, pA2⟩ := phaseA N1 hN1M.le hfirst
  have ht1 := tnn N1 hN1M.le
  have hψ1 : 0 ≤ ψ (x N1) := (S.second N1 hN1M j1 hj1 hw1).1
  have hlow : ts - c2 * e ≤ t N1 := by
    by_contra hc
    rw [not_le] at hc
    have h1 := C.lipA (t N1) (x N1) ht1 (by linarith) (by linarith)
    have h2 := C.below (t N1) ht1 (by linarith)
    have h3 := (abs_le.1 h1).2
    have h4 : Lψ * ‖x N1 - φA (t N1)‖ ≤ Lψ * (B * e) := mul_le_mul_of_nonneg_left pA2 hLψ
    have h6 : c2 * e * α < (ts - t N1) * α := mul_lt_mul_of_pos_right (by linarith) hα
    linarith
  have hq4 : |D| * (c2 * e) = |D| * c2 * e := by ring
  have hq5 : |D| * (c4 * e) = |D| * c4 * e := by ring
  -- near the crossing time the two solutions are close
  have close : ∀ s, 0 ≤ s → s ≤ T → |s - ts| ≤ c2 * e → ‖φA s - φB s‖ ≤ 2 * (|D| * c2 * e) := by
    intro s hs0 hsT hs
    have hs' := abs_le.1 hs
    have q1 := spA s ⟨hs0, by linarith⟩
    have q2 := spB s ⟨by linarith, hsT⟩
    have q3 : |D| * |s - ts| ≤ |D| * (c2 * e) := mul_le_mul_of_nonneg_left hs hD0
    have : φA s - φB s = (φA s - φA ts) - (φB s - φB ts) := by rw [C.meet]; abel
    rw [this]
    refine (norm_sub_le _ _).trans ?_
    linarith
  have tT1 : t N1 ≤ T := by linarith
  have xB : ‖x N1 - φB (t N1)‖ ≤ B * e + 2 * (|D| * c2 * e) := by
    have h1 := close (t N1) ht1 tT1 (abs_le.2 ⟨by linarith, by linarith⟩)
    have : x N1 - φB (t N1) = (x N1 - φA (t N1)) + (φA (t N1) - φB (t N1)) := by abel
    rw [this]
    exact (norm_add_le _ _).trans (add_le_add pA2 h1)
  -- a position of the second phase
  have inB : ∀ k, N1 ≤ k → k < M → t k ≤ T → 0 ≤ ψ (x k) → ‖x k - φB (t k)‖ ≤ c3 * e →
      h k = 0 ∨ ∀ j < n, w k j = 0 := by
    refine fun k hk hkM hkT hψ hx => or_iff_not_imp_left.2 fun hnz j hj => ?_
    by_contra hne
    obtain ⟨f1, f2⟩ := S.first k hkM j hj hne
    have hz : ψ (x k) = 0 := le_antisymm f1 hψ
    have htk : t N1 ≤ t k := by
      have := tmono N1 (k - N1) (by omega)
      rwa [Nat.add_sub_cancel' hk] at this
    have hclose : |t k - ts| ≤ c4 * e := by
      rw [abs_le]
      refine ⟨by linarith, ?_⟩
      rcases le_total (t k) ts with hle | hge
      · linarith
      · have h1 := C.lipB (t k) (x k) hge hkT (by linarith)
        have h2 := C.away (t k) hge hkT
        rw [hz] at h1
        have h3 := (abs_le.1 h1).1
        have h4 : Lψ * ‖x k - φB (t k)‖ ≤ Lψ * (c3 * e) := mul_le_mul_of_nonneg_left hx hLψ
        have h6 : min (t k - ts) η * α ≤ c4 * e * α := by linarith
        have h7 := le_of_mul_le_mul_right h6 hα
        rcases min_le_iff.1 h7 with h8 | h8
        · exact h8
        · linarith
    have hc' := abs_le.1 hclose
    have q2 := spB (t k) ⟨by linarith, hkT⟩
    have q3 : |D| * |t k - ts| ≤ |D| * (c4 * e) := mul_le_mul_of_nonneg_left hclose hD0
    have hball : ‖x k - φA ts‖ ≤ r / 2 := by
      have : x k - φA ts = (x k - φB (t k)) + (φB (t k) - φB ts) := by rw [C.meet]; abel
      rw [this]
      refine (norm_add_le _ _).trans ?_
      linarith
    exact absurd (S.leaves hn hA hB hLA hLB hL0 hH C hr hkM
      (lt_of_le_of_ne (S.step k hkM).1 (Ne.symm hnz)) hz hball) (not_lt.2 f2)
  -- the second phase
  have phaseB : ∀ i, N1 + i ≤ M → t (N1 + i) ≤ T → (∀ k, N1 ≤ k → k < N1 + i → h k = 0 ∨ ∀ j < n, w k j = 0) ∧
      0 ≤ ψ (x (N1 + i)) ∧ ‖x (N1 + i) - φB (t (N1 + i))‖ ≤ c3 * e := by
    intro i
    induction i with
    | zero =>
      intro _ _
      refine ⟨fun k h1 h2 => absurd h2 (by omega), hψ1, ?_⟩
      rw [Nat.add_zero]
      linarith
    | succ i ih =>
      intro hM hiT
      have hnx := S.next (N1 + i) (by omega)
      have hst := S.step (N1 + i) (by omega)
      rw [← Nat.add_assoc] at hM hiT ⊢
      have hiT' : t (N1 + i) ≤ T := by rw [hnx] at hiT; linarith
      obtain ⟨i1, i2, i3⟩ := ih (by omega) hiT'
      have hlast := inB (N1 + i) (by omega) (by omega) hiT' i2 i3
      have hall' : ∀ k, N1 ≤ k → k < N1 + i + 1 → h k = 0 ∨ ∀ j < n, w k j = 0 := by
        intro k h1 h2
        rcases Nat.lt_succ_iff_lt_or_eq.1 h2 with h3 | rfl
        · exact i1 k h1 h3
        · exact hlast
      refine ⟨hall', ?_, ?_⟩
      · rcases hlast with hz | hlast
        · rw [S.final _ (by omega), hz, zero_smul, add_zero]; exact i2
        · exact (S.second (N1 + i) (by omega) 0 hn (by rw [hlast 0 hn]; exact zero_ne_one)).2
      have err := seg (f := fB) (k0 := N1) (i := i + 1) hLB C.after (by linarith) (by linarith) (by omega)
        (by rw [← Nat.add_assoc]; exact hiT) (by rw [← Nat.add_assoc]; linarith)
        fun k h1 h2 => (hall' k h1 (by omega)).imp id fun hw j hj => by
          rw [S.slope k (by omega) j hj, hw j hj]
          simp
      rw [← Nat.add_assoc] at err
      refine err.trans ?_
      have h1 : ‖x N1 - φB (t N1)‖ + H ^ n + δ ≤ B * e + 2 * (|D| * c2 * e) + e := by linarith
      refine (mul_le_mul_of_nonneg_left h1 (by linarith)).trans (le_of_eq ?_)
      rw [hc3]; ring
  refine ⟨N1, hN1M.le, hfirst, ?_, fun _ => ?_, ?_, ?_⟩
  · intro k hk hkM hkT
    obtain ⟨i, rfl⟩ := Nat.exists_eq_add_of_le hk
    obtain ⟨-, p2, p3⟩ := phaseB i hkM.le hkT
    exact inB _ hk hkM hkT p2 p3
  · rw [abs_le]
    constructor <;> linarith
  · intro k hk
    have := (phaseA k (by omega) fun i hi => hfirst i (by omega)).1
    linarith
  · intro k hkM hkT
    rcases le_or_gt k N1 with hk | hk
    · obtain ⟨p1, p2⟩ := phaseA k hkM fun i hi => hfirst i (by omega)
      split
      · linarith
      · rename_i hgt
        rw [not_le] at hgt
        have h1 := close (t k) (tnn k hkM) hkT (by rw [abs_of_pos (by linarith)]; linarith)
        have : x k - φB (t k) = (x k - φA (t k)) + (φA (t k) - φB (t k)) := by abel
        rw [this]
        refine (norm_add_le _ _).trans ?_
        linarith
    · obtain ⟨i, rfl⟩ := Nat.exists_eq_add_of_le hk.le
      obtain ⟨-, -, p3⟩ := phaseB i hkM hkT
      split
      · rename_i hle
        have := tmono N1 i hkM
        have h1 := close (t (N1 + i)) (tnn _ hkM) hkT (by rw [abs_le]; constructor <;> linarith)
        have : x (N1 + i) - φA (t (N1 + i)) = (x (N1 + i) - φB (t (N1 + i)))
            - (φA (t (N1 + i)) - φB (t (N1 + i))) := by abel
        rw [this]
        refine (norm_sub_le _ _).trans ?_
        linarith
      · linarith

end
end Nosnoc
