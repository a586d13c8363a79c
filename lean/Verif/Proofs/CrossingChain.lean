import Verif.Proofs.CrossingError
import Verif.Spec.CrossingChain
/-
The error of switching Runge-Kutta steps along a trajectory that crosses surfaces several times.
-/
namespace Nosnoc
open Finset

section
variable {V : Type*} [NormedAddCommGroup V] [NormedSpace ℝ V]
variable {n : Nat} {a : Nat → Nat → ℝ} {b bw c : Nat → ℝ} {H : ℝ} {M : Nat}
  {x : Nat → V} {t h : Nat → ℝ} {X K : Nat → Nat → V} {A L D δ : ℝ}

theorem SmoothSolution.shift {f : V → V} {φ : ℝ → V} {t0 t1 : ℝ} (hs : SmoothSolution n D f φ t0 t1) (d : ℝ) :
    SmoothSolution n D f (fun u => φ (d + u)) (t0 - d) (t1 - d) := by
  obtain ⟨G, g1, g2, g3⟩ := hs
  have mem : ∀ u ∈ Set.Icc (t0 - d) (t1 - d), d + u ∈ Set.Icc t0 t1 := fun u hu =>
    ⟨by linarith [hu.1], by linarith [hu.2]⟩
  refine ⟨fun u => G (d + u), g1.comp (contDiff_const.add contDiff_id), fun q hq u hu => ?_, fun u hu => ⟨?_, ?_⟩⟩
  · rw [iteratedDeriv_comp_const_add]
    exact g2 q hq _ (mem u hu)
  · exact (g3 _ (mem u hu)).1
  · have h1 := (g3 _ (mem u hu)).2
    have h2 : HasDerivWithinAt (fun u : ℝ => d + u) 1 (Set.Icc (t0 - d) (t1 - d)) u :=
      ((hasDerivAt_id u).const_add d).hasDerivWithinAt
    have := h1.scomp u h2 mem
    rw [one_smul] at this
    exact this

theorem Crossing.shift {fA fB : V → V} {ψ : V → ℝ} {φA φB : ℝ → V} {G : V →ₗ[ℝ] ℝ} {ts η T α Lψ r vel μ : ℝ}
    (C : Crossing n D fA fB ψ φA φB G ts η T α Lψ r vel μ) {d : ℝ} (h0 : 0 ≤ d) (h1 : d ≤ ts) :
    Crossing n D fA fB ψ (fun u => φA (d + u)) (fun u => φB (d + u)) G (ts - d) η (T - d) α Lψ r vel μ where
  eta := C.eta
  alpha := C.alpha
  radius := C.radius
  lipNonneg := C.lipNonneg
  start := by linarith
  horizon := by linarith [C.horizon]
  before := (C.before.shift d).mono (by linarith) (by linarith)
  after := (C.after.shift d).mono (by linarith) (by linarith)
  meet := by
    have : d + (ts - d) = ts := by ring
    simp only [this]; exact C.meet
  below := fun u hu0 hu1 => (C.below (d + u) (by linarith) (by linarith)).trans (le_of_eq (by ring))
  above := fun u hu0 hu1 => (le_of_eq (by ring)).trans (C.above (d + u) (by linarith) (by linarith))
  away := fun u hu0 hu1 => by
    have := C.away (d + u) (by linarith) (by linarith)
    rwa [show d + u - ts = u - (ts - d) by ring] at this
  lipA := fun u y hu0 hu1 hy => C.lipA (d + u) y (by linarith) (by linarith) hy
  lipB := fun u y hu0 hu1 hy => C.lipB (d + u) y (by linarith) (by linarith) hy
  linear := by
    have : d + (ts - d) = ts := by ring
    simp only [this]; exact C.linear
  acrossA := by
    have : d + (ts - d) = ts := by ring
    simp only [this]; exact C.acrossA
  acrossB := by
    have : d + (ts - d) = ts := by ring
    simp only [this]; exact C.acrossB
  small := C.small

theorem smoothConst_mono {T T' : ℝ} (hA : 0 ≤ A) (hL : 0 ≤ L) (h0 : 0 ≤ T') (h1 : T' ≤ T) :
    smoothConst n A L D T' ≤ smoothConst n A L D T := by
  unfold smoothConst
  have : 0 ≤ T := h0.trans h1
  gcongr

theorem crossConst_mono {T T' α Lψ : ℝ} (hA : 0 ≤ A) (hL : 0 ≤ L) (h0 : 0 ≤ T') (h1 : T' ≤ T) (hα : 0 < α)
    (hψ : 0 ≤ Lψ) : crossConst n A L D T' α Lψ ≤ crossConst n A L D T α Lψ := by
  have hm := smoothConst_mono (n := n) (D := D) hA hL h0 h1
  have hp : 1 ≤ smoothConst n A L D T' := smoothConst_ge hA hL h0
  have hp' : 0 ≤ smoothConst n A L D T' := by linarith
  have hp'' : 0 ≤ smoothConst n A L D T := by linarith
  unfold crossConst afterConst
  gcongr

theorem crossConst_ge {T α Lψ : ℝ} (hA : 0 ≤ A) (hL : 0 ≤ L) (h0 : 0 ≤ T) (hα : 0 < α)
    (hψ : 0 ≤ Lψ) : 1 ≤ crossConst n A L D T α Lψ := by
  have hp : 1 ≤ smoothConst n A L D T := smoothConst_ge hA hL h0
  have hq : 0 ≤ 2 * |D| * (Lψ * smoothConst n A L D T / α) := by positivity
  have h1 : 1 ≤ afterConst n A L D T α Lψ := by
    unfold afterConst
    nlinarith
  have h2 : 0 ≤ (1 + 2 * |D|) * (Lψ * afterConst n A L D T α Lψ / α) := by positivity
  unfold crossConst
  linarith

/-- The steps from position `k0` on. -/
theorem SwitchSteps.drop {fA fB : V → V} {ψ : V → ℝ} {w : Nat → Nat → ℝ}
    (S : SwitchSteps n a b bw fA fB ψ H M x t h X K w) (k0 : Nat) :
    SwitchSteps n a b bw fA fB ψ H (M - k0) (fun k => x (k0 + k)) (fun k => t (k0 + k) - t k0)
      (fun k => h (k0 + k)) (fun k => X (k0 + k)) (fun k => K (k0 + k)) (fun k => w (k0 + k)) where
  zero := by simp
  next := fun k hk => by
    have := S.next (k0 + k) (by omega)
    rw [← Nat.add_assoc, this]; ring
  step := fun k hk => S.step _ (by omega)
  stage := fun k hk => S.stage _ (by omega)
  final := fun k hk => S.final (k0 + k) (by omega)
  final' := fun k hk => S.final' (k0 + k) (by omega)
  nonneg := S.nonneg
  pos := S.pos
  slope := fun k hk => S.slope _ (by omega)
  weight := fun k hk => S.weight _ (by omega)
  first := fun k hk => S.first (k0 + k) (by omega)
  second := fun k hk => S.second (k0 + k) (by omega)

/-- The error along a crossing that begins at position `k0`. -/
theorem SwitchSteps.crossesAt {fA fB : V → V} {ψ : V → ℝ} {w : Nat → Nat → ℝ}
    (S : SwitchSteps n a b bw fA fB ψ H M x t h X K w) (hn : 0 < n)
    (ho : StageOrder n a b c δ) (hδ0 : 0 ≤ δ)
    (hA : ∀ j < n, ∑ r ∈ range n, |a j r| ≤ A) (hB : ∑ r ∈ range n, |b r| ≤ A)
    (hLA : ∀ x y, ‖fA x - fA y‖ ≤ L * ‖x - y‖) (hLB : ∀ x y, ‖fB x - fB y‖ ≤ L * ‖x - y‖) (hL0 : 0 ≤ L)
    (hH0 : 0 ≤ H) (hH : H ≤ 1 / (2 * (A * L) + 1)) {φA φB : ℝ → V} {G : V →ₗ[ℝ] ℝ}
    {s ts η Te T α Lψ r vel μ : ℝ} {k0 : Nat} (hk0 : k0 ≤ M) (h0 : s ≤ t k0) (h1 : t k0 ≤ ts)
    (C : Crossing n D fA fB ψ (fun u => φA (s + u)) (fun u => φB (s + u)) G (ts - s) η (Te - s) α Lψ r vel μ)
    (hT : Te - s ≤ T) (hr : 4 * A * vel * H ≤ r) (hη : H ≤ η / 2)
    {E : ℝ} (hE : crossConst n A L D T α Lψ * (‖x k0 - φA (t k0)‖ + H ^ n + δ) ≤ E)
    (hE1 : E ≤ η / 2) (hE2 : E ≤ r / 2) :
    ∃ N1, k0 ≤ N1 ∧ N1 ≤ M ∧ (∀ k, k0 ≤ k → k < N1 → h k = 0 ∨ ∀ j < n, w k j = 1) ∧
      (∀ k, N1 ≤ k → k < M → t k ≤ Te → h k = 0 ∨ ∀ j < n, w k j = 0) ∧
      (N1 < M → |t N1 - ts| ≤ E) ∧ (∀ k, k0 ≤ k → k ≤ N1 → t k ≤ ts + E) ∧
      ∀ k, k0 ≤ k → k ≤ M → t k ≤ Te → ‖x k - if t k ≤ ts then φA (t k) else φB (t k)‖ ≤ E := by
  have hA0 : 0 ≤ A := (Finset.sum_nonneg fun _ _ => abs_nonneg _).trans hB
  have C' := C.shift (d := t k0 - s) (by linarith) (by linarith)
  have e1 : ∀ u, s + (t k0 - s + u) = t k0 + u := fun u => by ring
  have e2 : ts - s - (t k0 - s) = ts - t k0 := by ring
  have e3 : Te - s - (t k0 - s) = Te - t k0 := by ring
  simp only [e1, e2, e3] at C'
  have hth := C'.horizon
  have hts := C'.start
  have heta := C'.eta
  have hmono : crossConst n A L D (Te - t k0) α Lψ * (‖x k0 - φA (t k0)‖ + H ^ n + δ) ≤ E := by
    refine (mul_le_mul_of_nonneg_right (crossConst_mono hA0 hL0 (by linarith) (by linarith) C.alpha C.lipNonneg)
      (by positivity)).trans hE
  obtain ⟨N1, n1, n2, n3, n4, n5, n6⟩ := (S.drop k0).crosses hn ho hδ0 hA hB hLA hLB hL0 hH0 hH C' hr hη
    (E := crossConst n A L D (Te - t k0) α Lψ * (‖x k0 - φA (t k0)‖ + H ^ n + δ))
    (by simp only [add_zero]) (hmono.trans hE1) (hmono.trans hE2)
  have hk : ∀ k, k0 ≤ k → k0 + (k - k0) = k := fun k hk => by omega
  refine ⟨k0 + N1, by omega, by omega, ?_, ?_, ?_, ?_, ?_⟩
  · intro k h1 h2
    have := n2 (k - k0) (by omega)
    simpa only [hk k h1] using this
  · intro k h1 h2 h3
    have := n3 (k - k0) (by omega) (by omega) (by rw [hk k (by omega)]; linarith)
    simpa only [hk k (show k0 ≤ k by omega)] using this
  · intro h1
    have := n4 (by omega)
    rw [show t (k0 + N1) - t k0 - (ts - t k0) = t (k0 + N1) - ts by ring] at this
    exact this.trans hmono
  · intro k h1 h2
    have := n5 (k - k0) (by omega)
    rw [hk k h1] at this
    linarith
  · intro k h1 h2 h3
    have := n6 (k - k0) (by omega) (by rw [hk k h1]; linarith)
    simp only [hk k h1] at this
    have e4 : t k0 + (t k - t k0) = t k := by ring
    have e5 : (t k - t k0 ≤ ts - t k0) ↔ t k ≤ ts := by constructor <;> intro <;> linarith
    simp only [e4, e5] at this
    exact this.trans hmono

theorem CrossingChain.order {f : Nat → V → V} {ψ : Nat → V → ℝ} {m : Nat} {φ : Nat → ℝ → V} {s ts : Nat → ℝ}
    {η T α Lψ r vel μ : ℝ} (C : CrossingChain n D f ψ m φ s ts η T α Lψ r vel μ) :
    ∀ q' ≤ m, ∀ q < q', ts q + η ≤ s q' := by
  intro q'
  induction q' with
  | zero => intro _ q hq; omega
  | succ q' ih =>
    intro hm q hq
    rcases Nat.lt_succ_iff_lt_or_eq.1 hq with h1 | rfl
    · have h2 := ih (by omega) q h1
      obtain ⟨G, Cr⟩ := C.crossing q' hm
      have := Cr.start
      have := C.sooner q' hm
      have := Cr.eta
      linarith
    · exact C.sooner q hm

set_option maxHeartbeats 1000000 in
/-- The error along a chain of crossings. -/
theorem SwitchSteps.chain {f : Nat → V → V} {ψ : Nat → V → ℝ} {w : Nat → Nat → Nat → ℝ}
    (S : ∀ q, SwitchSteps n a b bw (f q) (f (q + 1)) (ψ q) H M x t h X K (w q))
    (hw : ∀ q k j, w (q + 1) k j = 1 - w q k j) (hn : 0 < n)
    (ho : StageOrder n a b c δ) (hδ0 : 0 ≤ δ)
    (hA : ∀ j < n, ∑ r ∈ range n, |a j r| ≤ A) (hB : ∑ r ∈ range n, |b r| ≤ A)
    (hL : ∀ q x y, ‖f q x - f q y‖ ≤ L * ‖x - y‖) (hL0 : 0 ≤ L)
    (hH0 : 0 ≤ H) (hH : H ≤ 1 / (2 * (A * L) + 1)) {φ : Nat → ℝ → V} {s ts : Nat → ℝ} {η T α Lψ r vel μ : ℝ}
    {m : Nat} (hm : 0 < m) (C : CrossingChain n D f ψ m φ s ts η T α Lψ r vel μ)
    (hr : 4 * A * vel * H ≤ r) (hη : H ≤ η / 2)
    {E : ℝ} (hE : E = (crossConst n A L D T α Lψ + 1) ^ m * (‖x 0 - φ 0 0‖ + H ^ n + δ))
    (hE1 : E ≤ η / 2) (hE2 : E ≤ r / 2) :
    ∃ N1 : Nat → Nat, N1 0 = 0 ∧ (∀ q < m, N1 q ≤ N1 (q + 1) ∧ N1 (q + 1) ≤ M) ∧
      (∀ q ≤ m, ∀ k, N1 q ≤ k → k < M → (q < m → k < N1 (q + 1)) → t k ≤ s m + η →
        h k = 0 ∨ ∀ j < n, w q k j = 1) ∧
      (∀ q < m, N1 (q + 1) < M → |t (N1 (q + 1)) - ts q| ≤ E) ∧
      (∀ q < m, ∀ k ≤ N1 (q + 1), t k ≤ ts q + E) ∧
      ∀ k ≤ M, t k ≤ s m + η → ∀ q ≤ m, (∀ q' < q, ts q' < t k) → (q < m → t k ≤ ts q) →
        ‖x k - φ q (t k)‖ ≤ E := by
  have hA0 : 0 ≤ A := (Finset.sum_nonneg fun _ _ => abs_nonneg _).trans hB
  obtain ⟨G0, C0⟩ := C.crossing 0 hm
  have hη0 := C0.eta
  have hT0 : 0 ≤ T := by
    have h1 := C.length 0 hm
    have h2 := C0.start
    have h3 := C0.horizon
    linarith
  set c1 := crossConst n A L D T α Lψ with hc1
  have hc11 : 1 ≤ c1 := crossConst_ge hA0 hL0 hT0 C0.alpha C0.lipNonneg
  have hz : t 0 = 0 := (S 0).zero
  have tmono : ∀ k, ∀ i, k + i ≤ M → t k ≤ t (k + i) := by
    intro k i
    induction i with
    | zero => intro _; simp
    | succ i ih =>
      intro hM
      have h1 := ih (by omega)
      have h2 := (S 0).next (k + i) (by omega)
      have h3 := ((S 0).step (k + i) (by omega)).1
      rw [← Nat.add_assoc, h2]
      linarith
  have tmono' : ∀ k k', k ≤ k' → k' ≤ M → t k ≤ t k' := by
    intro k k' h1 h2
    have := tmono k (k' - k) (by omega)
    rwa [Nat.add_sub_cancel' h1] at this
  set e := ‖x 0 - φ 0 0‖ + H ^ n + δ with he
  have hHn : 0 ≤ H ^ n := pow_nonneg hH0 n
  have he0 : 0 ≤ e := by positivity
  have hen : H ^ n + δ ≤ e := by rw [he]; linarith [norm_nonneg (x 0 - φ 0 0)]
  have hpow : ∀ q, 1 ≤ (c1 + 1) ^ q := fun q => one_le_pow₀ (by linarith)
  have hpmono : ∀ q, (c1 + 1) ^ q * e ≤ (c1 + 1) ^ (q + 1) * e := by
    intro q
    refine mul_le_mul_of_nonneg_right ?_ he0
    rw [pow_succ]
    have := hpow q
    nlinarith
  have hpmono' : ∀ q q', q ≤ q' → (c1 + 1) ^ q * e ≤ (c1 + 1) ^ q' * e := fun q q' hq =>
    mul_le_mul_of_nonneg_right (pow_le_pow_right₀ (by linarith) hq) he0
  -- the claim for the first `m'` crossings
  have key : ∀ m', 1 ≤ m' → m' ≤ m → ∃ N1 : Nat → Nat, N1 0 = 0 ∧
      (∀ q < m', N1 q ≤ N1 (q + 1) ∧ N1 (q + 1) ≤ M) ∧
      (∀ q ≤ m', ∀ k, N1 q ≤ k → k < M → (q < m' → k < N1 (q + 1)) → t k ≤ s m' + η →
        h k = 0 ∨ ∀ j < n, w q k j = 1) ∧
      (∀ q < m', N1 (q + 1) < M → |t (N1 (q + 1)) - ts q| ≤ (c1 + 1) ^ m' * e) ∧
      (∀ q < m', ∀ k ≤ N1 (q + 1), t k ≤ ts q + (c1 + 1) ^ m' * e) ∧
      ∀ k ≤ M, t k ≤ s m' + η → ∀ q ≤ m', (∀ q' < q, ts q' < t k) → (q < m' → t k ≤ ts q) →
        ‖x k - φ q (t k)‖ ≤ (c1 + 1) ^ m' * e := by
    intro m' h1
    induction m', h1 using Nat.le_induction with
    | base =>
      intro _
      have hts := C0.start
      rw [C.start, sub_zero] at hts
      have hle : c1 * e ≤ (c1 + 1) ^ 1 * e := by rw [pow_one]; nlinarith
      have hb := hpmono' 1 m hm
      rw [hE] at hE1 hE2
      obtain ⟨N1, -, n1, n2, n3, n4, n5, n6⟩ := (S 0).crossesAt hn ho hδ0 hA hB (hL 0) (hL 1) hL0 hH0 hH
        (Nat.zero_le M) (s := s 0) (by rw [C.start, hz]) (by rw [hz]; exact hts) C0 (C.length 0 hm) hr hη
        (E := (c1 + 1) ^ 1 * e) (by rw [hz, ← he]; exact hle) (hb.trans hE1) (hb.trans hE2)
      refine ⟨fun q => if q = 0 then 0 else N1, rfl, ?_, ?_, ?_, ?_, ?_⟩
      · intro q hq
        obtain rfl : q = 0 := by omega
        simp [n1]
      · intro q hq k h1 h2 h3 h4
        rcases Nat.eq_zero_or_pos q with rfl | hq0
        · exact n2 k (Nat.zero_le _) (by simpa using h3 Nat.zero_lt_one)
        · obtain rfl : q = 1 := by omega
          refine (n3 k (by simpa using h1) h2 (by simpa using h4)).imp id fun hh j hj => ?_
          rw [hw 0, hh j hj, sub_zero]
      · intro q hq h1
        obtain rfl : q = 0 := by omega
        exact n4 (by simpa using h1)
      · intro q hq k h1
        obtain rfl : q = 0 := by omega
        exact n5 k (Nat.zero_le _) (by simpa using h1)
      · intro k h1 h2 q hq h3 h4
        have := n6 k (Nat.zero_le _) h1 (by simpa using h2)
        rcases Nat.eq_zero_or_pos q with rfl | hq0
        · rwa [if_pos (h4 Nat.zero_lt_one)] at this
        · obtain rfl : q = 1 := by omega
          rwa [if_neg (not_le.2 (h3 0 Nat.zero_lt_one))] at this
    | succ m' h1 ih =>
      intro hm'
      have hb0 : (c1 + 1) ^ m' * e ≤ (c1 + 1) ^ (m' + 1) * e := hpmono m'
      have hb := hpmono' (m' + 1) m hm'
      obtain ⟨N1, n1, n2, n3, n4, n5, n6⟩ := ih (by omega)
      obtain ⟨G, Cr⟩ := C.crossing m' hm'
      have hlat := C.later m' hm' (by omega)
      have hsoon := C.sooner m' hm'
      have hord := C.order m' (by omega)
      have hpos : 0 < s m' := by
        have h2 := hord 0 (by omega)
        have h3 := C0.start
        rw [C.start] at h3
        linarith
      have hE1' : (c1 + 1) ^ (m' + 1) * e ≤ η / 2 := hb.trans (by rw [← hE]; exact hE1)
      have hE2' : (c1 + 1) ^ (m' + 1) * e ≤ r / 2 := hb.trans (by rw [← hE]; exact hE2)
      -- positions before the time `s m'`
      have early : ∀ k ≤ M, t k < s m' → ∀ q ≤ m' + 1, (∀ q' < q, ts q' < t k) → (q < m' + 1 → t k ≤ ts q) →
          ‖x k - φ q (t k)‖ ≤ (c1 + 1) ^ (m' + 1) * e := by
        intro k hk ht q hq h2 h3
        rcases Nat.lt_or_ge m' q with hq' | hq'
        · have := h2 m' hq'
          linarith
        · exact (n6 k hk (by linarith) q hq' h2 fun hq => h3 (by omega)).trans hb0
      by_cases hex : ∃ k, k ≤ M ∧ s m' ≤ t k
      swap
      · have hall : ∀ k ≤ M, t k < s m' := fun k hk => by
          by_contra hc
          exact hex ⟨k, hk, not_lt.1 hc⟩
        have hlast : N1 m' ≤ M := by
          obtain ⟨m'', rfl⟩ := Nat.exists_eq_add_of_le' h1
          exact (n2 m'' (by omega)).2
        refine ⟨fun q => if q ≤ m' then N1 q else M, by simp [n1], ?_, ?_, ?_, ?_, ?_⟩
        · intro q hq
          rcases Nat.lt_succ_iff_lt_or_eq.1 hq with hq' | rfl
          · simpa [hq'.le, Nat.succ_le_of_lt hq'] using n2 q hq'
          · simp [hlast]
        · intro q hq k h2 h3 h4 h5
          rcases Nat.lt_or_ge m' q with hq' | hq'
          · simp [not_le.2 hq'] at h2
            omega
          · simp only [hq', if_true] at h2
            refine n3 q hq' k h2 h3 (fun hqm => ?_) (by linarith [hall k h3.le])
            have := h4 (by omega)
            simpa [Nat.succ_le_of_lt hqm] using this
        · intro q hq h2
          rcases Nat.lt_succ_iff_lt_or_eq.1 hq with hq' | rfl
          · simp only [Nat.succ_le_of_lt hq', if_true] at h2 ⊢
            exact (n4 q hq' h2).trans hb0
          · simp at h2
        · intro q hq k h2
          rcases Nat.lt_succ_iff_lt_or_eq.1 hq with hq' | rfl
          · simp only [Nat.succ_le_of_lt hq', if_true] at h2
            have := n5 q hq' k h2
            linarith
          · simp at h2
            have := hall k h2
            have : 0 ≤ (c1 + 1) ^ (q + 1) * e := mul_nonneg (by linarith [hpow (q + 1)]) he0
            linarith
        · intro k hk _ q hq h2 h3
          exact early k hk (hall k hk) q hq h2 h3
      classical
      set k0 := Nat.find hex with hk0
      obtain ⟨hk0M, hk0s⟩ := Nat.find_spec hex
      rw [← hk0] at hk0M hk0s
      have hbefore : ∀ k < k0, t k < s m' := by
        intro k hk
        have := Nat.find_min hex hk
        by_contra hc
        exact this ⟨by omega, not_lt.1 hc⟩
      have hk0pos : k0 ≠ 0 := by
        intro h0
        rw [h0, hz] at hk0s
        linarith
      have hk0t : t k0 ≤ s m' + η / 2 := by
        obtain ⟨k1, hk1⟩ := Nat.exists_eq_succ_of_ne_zero hk0pos
        have h2 := hbefore k1 (by omega)
        have h3 := (S 0).next k1 (by omega)
        have h4 := ((S 0).step k1 (by omega)).2
        rw [hk1, Nat.succ_eq_add_one, h3]
        linarith
      have herr : ‖x k0 - φ m' (t k0)‖ ≤ (c1 + 1) ^ m' * e := by
        refine n6 k0 hk0M (by linarith) m' le_rfl (fun q' hq' => ?_) fun hh => absurd hh (lt_irrefl _)
        have := hord q' hq'
        linarith
      have hlastk : N1 m' ≤ k0 := by
        by_contra hc
        obtain ⟨m'', rfl⟩ := Nat.exists_eq_add_of_le' h1
        have h2 := n5 m'' (by omega) k0 (by omega)
        have h3 := hord m'' (by omega)
        linarith
      have hstep : c1 * (‖x k0 - φ m' (t k0)‖ + H ^ n + δ) ≤ (c1 + 1) ^ (m' + 1) * e := by
        have h2 : ‖x k0 - φ m' (t k0)‖ + H ^ n + δ ≤ (c1 + 1) ^ m' * e + e := by linarith
        refine (mul_le_mul_of_nonneg_left h2 (by linarith)).trans ?_
        have h3 := hpmono' 1 m' h1
        rw [pow_one] at h3
        have h4 : (c1 + 1) ^ (m' + 1) * e = c1 * ((c1 + 1) ^ m' * e) + (c1 + 1) ^ m' * e := by rw [pow_succ]; ring
        rw [h4, mul_add]
        nlinarith
      obtain ⟨N', p0, p1, p2, p3, p4, p5, p6⟩ := (S m').crossesAt hn ho hδ0 hA hB (hL m') (hL (m' + 1)) hL0 hH0 hH
        hk0M hk0s (by linarith) Cr (C.length m' hm') hr hη hstep hE1' hE2'
      refine ⟨fun q => if q ≤ m' then N1 q else N', by simp [n1], ?_, ?_, ?_, ?_, ?_⟩
      · intro q hq
        rcases Nat.lt_succ_iff_lt_or_eq.1 hq with hq' | rfl
        · simpa [hq'.le, Nat.succ_le_of_lt hq'] using n2 q hq'
        · simp [p1]
          omega
      · intro q hq k h2 h3 h4 h5
        rcases Nat.lt_or_ge m' q with hq' | hq'
        · obtain rfl : q = m' + 1 := by omega
          simp at h2
          refine (p3 k h2 h3 h5).imp id fun hh j hj => ?_
          rw [hw m', hh j hj, sub_zero]
        · simp only [hq', if_true] at h2
          rcases Nat.lt_or_ge q m' with hqm | hqm
          · have h6 := h4 (by omega)
            simp only [Nat.succ_le_of_lt hqm, if_true] at h6
            refine n3 q hq' k h2 h3 (fun _ => h6) ?_
            have := n5 q hqm k h6.le
            have := hord q hqm
            linarith
          · obtain rfl : q = m' := by omega
            have h6 := h4 (by omega)
            simp at h6
            rcases Nat.lt_or_ge k k0 with hkk | hkk
            · exact n3 q le_rfl k h2 h3 (fun hh => absurd hh (lt_irrefl _)) (by linarith [hbefore k hkk])
            · exact p2 k hkk h6
      · intro q hq h2
        rcases Nat.lt_succ_iff_lt_or_eq.1 hq with hq' | rfl
        · simp only [Nat.succ_le_of_lt hq', if_true] at h2 ⊢
          exact (n4 q hq' h2).trans hb0
        · simp at h2 ⊢
          exact p4 h2
      · intro q hq k h2
        rcases Nat.lt_succ_iff_lt_or_eq.1 hq with hq' | rfl
        · simp only [Nat.succ_le_of_lt hq', if_true] at h2
          have := n5 q hq' k h2
          linarith
        · simp at h2
          rcases Nat.lt_or_ge k k0 with hkk | hkk
          · have := hbefore k hkk
            have : 0 ≤ (c1 + 1) ^ (q + 1) * e := mul_nonneg (by linarith [hpow (q + 1)]) he0
            linarith
          · exact p5 k hkk h2
      · intro k hk h2 q hq h3 h4
        rcases Nat.lt_or_ge k k0 with hkk | hkk
        · exact early k hk (hbefore k hkk) q hq h3 h4
        have h5 := tmono' k0 k hkk hk
        have h6 := p6 k hkk hk h2
        rcases Nat.lt_or_ge q m' with hqm | hqm
        · have := h4 (by omega)
          have := hord q hqm
          linarith
        · rcases Nat.lt_or_ge m' q with hq' | hq'
          · obtain rfl : q = m' + 1 := by omega
            rwa [if_neg (not_le.2 (h3 m' (by omega)))] at h6
          · obtain rfl : q = m' := by omega
            rwa [if_pos (h4 (by omega))] at h6
  rw [hE]
  exact key m hm le_rfl

end
end Nosnoc
