import Verif.Proofs.TwoPhase
import Verif.Proofs.PssAlg
import Verif.Spec.OneSwitch
/-
Construction of a polygonal Filippov solution for one switching function and given controls.
-/
namespace Nosnoc

/-- The two rows of a full sign matrix with one column. -/
theorem SMat.two_rows {S : SMat} (hS : S.IsDense) (hp : S.Partition) (h1 : S.cols = 1) :
    ∃ a < S.rows, ∃ b < S.rows, a ≠ b ∧ S.entry a 0 = 1 ∧ S.entry b 0 = -1 ∧
      (∀ i < S.rows, i = a ∨ i = b) ∧
      ∀ f : Nat → ℝ, ∑ i ∈ Finset.range S.rows, f i = f a + f b := by
  obtain ⟨a, ha, ua⟩ := hp fun _ => true
  obtain ⟨b, hb, ub⟩ := hp fun _ => false
  have hc : 0 < S.cols := by omega
  have ea : S.entry a 0 = 1 := by
    simpa using ha 0 hc (by rcases hS.1 a a.2 0 hc with h | h <;> rw [h] <;> norm_num)
  have eb : S.entry b 0 = -1 := by
    simpa using hb 0 hc (by rcases hS.1 b b.2 0 hc with h | h <;> rw [h] <;> norm_num)
  have hab : a ≠ b := by intro h; rw [h, eb] at ea; norm_num at ea
  have all : ∀ i : Fin S.rows, i = a ∨ i = b := by
    intro i
    rcases hS.1 i i.2 0 hc with h | h
    · right
      refine ub i fun k hk _ => ?_
      have : k = 0 := by omega
      subst this; simpa using h
    · left
      refine ua i fun k hk _ => ?_
      have : k = 0 := by omega
      subst this; simpa using h
  refine ⟨a, a.2, b, b.2, fun h => hab (Fin.ext h), ea, eb, fun i hi => ?_, fun f => ?_⟩
  · rcases all ⟨i, hi⟩ with h | h
    · exact .inl (congrArg Fin.val h)
    · exact .inr (congrArg Fin.val h)
  · rw [Finset.sum_range, ← Finset.sum_pair (f := fun i : Fin S.rows => f i) hab]
    symm
    refine Finset.sum_subset (Finset.subset_univ _) fun i _ hi => absurd ?_ hi
    rcases all i with rfl | rfl <;> simp

theorem path_exists {um : UserModel} {uo : UserOcp} {po : PreOpts} (C : OneSwitch um uo po) {W : ℝ}
    (T0 : Path)
    (hp : ∀ k < po.nStages, ∀ x, (um.cVec 0).entry 0 x [] (T0.pL um k) = (um.cVec 0).entry 0 x [] (T0.pL um 0))
    (hu : ∀ k < po.nStages, ∀ i < um.nU, getOr uo.lbu ⊥ i ≤ ((T0.u k i : ℝ) : EReal) ∧
      ((T0.u k i : ℝ) : EReal) ≤ getOr uo.ubu ⊤ i)
    (hv : ∀ i < um.nV, getOr uo.lbv ⊥ i ≤ ((T0.v i : ℝ) : EReal) ∧
      ((T0.v i : ℝ) : EReal) ≤ getOr uo.ubv ⊤ i) :
    ∃ T : Path, T.x0 = T0.x0 ∧ T.u = T0.u ∧ T.v = T0.v ∧ T.p = T0.p ∧ T.Solves um uo po W := by
  obtain ⟨a, ha, b, hb, hab, sa, sb, all, sum⟩ := SMat.two_rows C.dense C.part C.one
  obtain ⟨A, B, hc⟩ := C.pc.c 0 (by rw [C.sys]; omega) 0 (by rw [C.one]; omega) (T0.pL um 0)
  let n := fun k => max 2 (nfe po k)
  have hn : ∀ k < po.nStages, n k = nfe po k := fun k hk => max_eq_right (C.elems k hk)
  have hH : ∀ k, 0 ≤ nominalH po k := fun k =>
    div_nonneg (div_nonneg C.time (Nat.cast_nonneg _)) (Nat.cast_nonneg _)
  let F : Nat → Nat → Nat → ℝ := fun k r i => (um.Fmat 0).entry i r [] [] (T0.uL um k) (T0.pL um k) (T0.vL um)
  let g : Nat → Nat → ℝ := fun k r => ∑ i ∈ Finset.range um.nX, A i * (W * F k r i)
  choose hh al cs h0 hstep hsum using fun (k : Nat) (c0 : ℝ) =>
    stage_exists (n := n k) (le_max_left _ _) (hH k) c0 (g k a) (g k b)
  let cf := fun x : Nat → ℝ => B + ∑ i ∈ Finset.range um.nX, A i * x i
  let vel : Nat → ℝ → Nat → ℝ := fun k α i => W * (α * F k a i + (1 - α) * F k b i)
  let pos : Nat → (Nat → ℝ) → Nat → Nat → ℝ := fun k x e i =>
    x i + ∑ e' ∈ Finset.range e, hh k (cf x) e' * vel k (al k (cf x) e') i
  let xs : Nat → Nat → ℝ := fun k => Nat.rec T0.x0 (fun k x => pos k x (n k)) k
  have xs0 : xs 0 = T0.x0 := rfl
  have xsS : ∀ k, xs (k + 1) = pos k (xs k) (n k) := fun _ => rfl
  -- the switching function along the path
  have cpos : ∀ k x e, e ≤ n k → cf (pos k x e) = cs k (cf x) e := by
    intro k x e
    induction e with
    | zero =>
      intro _
      rw [h0]
      simp [pos]
    | succ e ih =>
      intro he
      rw [(hstep k (cf x) e (by omega)).2.2.2, ← ih (by omega)]
      have e1 : ∀ i, pos k x (e + 1) i = pos k x e i + hh k (cf x) e * vel k (al k (cf x) e) i := by
        intro i
        simp only [pos, Finset.sum_range_succ]
        ring
      have e2 : ∀ (y v : Nat → ℝ) (r : ℝ), cf (fun i => y i + r * v i)
          = cf y + r * ∑ i ∈ Finset.range um.nX, A i * v i := by
        intro y v r
        simp only [cf]
        rw [Finset.mul_sum, add_assoc, ← Finset.sum_add_distrib]
        congr 1
        exact Finset.sum_congr rfl fun i _ => by ring
      have e3 : ∀ α, ∑ i ∈ Finset.range um.nX, A i * vel k α i = α * g k a + (1 - α) * g k b := by
        intro α
        simp only [g, vel]
        rw [Finset.mul_sum, Finset.mul_sum, ← Finset.sum_add_distrib]
        exact Finset.sum_congr rfl fun i _ => by ring
      rw [show pos k x (e + 1) = fun i => pos k x e i + hh k (cf x) e * vel k (al k (cf x) e) i from
        funext e1, e2, e3]
  let T : Path :=
    { T0 with
      speed := fun _ => 1
      H := fun k e => hh k (cf (xs k)) e
      X := fun k e => pos k (xs k) (e + 1)
      theta := fun k e _ i => if i = a then al k (cf (xs k)) e else 1 - al k (cf (xs k)) e }
  have st : ∀ k e, HasFE po k e → T.start po k e = pos k (xs k) e := by
    intro k e hk
    funext i
    unfold Path.start prevFe
    by_cases he : 0 < e
    · rw [if_pos he]
      change pos k (xs k) (e - 1 + 1) i = _
      rw [Nat.sub_add_cancel he]
    · rw [if_neg he]
      obtain rfl : e = 0 := by omega
      by_cases hk0 : 0 < k
      · rw [if_pos hk0]
        change pos (k - 1) (xs (k - 1)) (nfe po (k - 1) - 1 + 1) i = _
        have hk1 : k - 1 < po.nStages := by have := hk.1; omega
        have := C.elems (k - 1) hk1
        rw [Nat.sub_add_cancel (by omega), ← hn _ hk1, ← xsS, Nat.sub_add_cancel hk0]
        simp [pos]
      · rw [if_neg hk0]
        obtain rfl : k = 0 := by omega
        simp [pos, xs0, T]
  have cL : ∀ k < po.nStages, ∀ x : Nat → ℝ,
      (um.cVec 0).entry 0 ((List.range um.nX).map x) [] (T0.pL um k) = cf x := by
    intro k hk x
    rw [hp k hk, hc]
    simp only [cf]
    congr 1
    refine Finset.sum_congr rfl fun i hi => ?_
    have hi := Finset.mem_range.1 hi
    rw [List.getD_eq_getElem?_getD]
    simp [hi]
  have lt : ∀ {k e}, HasFE po k e → e < n k := fun {k e} hk => by rw [hn k hk.1]; exact hk.2
  have sys0 : ∀ {s}, s < um.nSys → s = 0 := fun {s} hs => by rw [C.sys] at hs; omega
  -- closedness of both ends
  have cl : ∀ k e, HasFE po k e → ∀ i < (um.Fmat 0).nCols, T.theta k e 0 i ≠ 0 → ∀ k' < po.nStages,
      um.InClosedRegion 0 i (T.startL po um k e) (T0.pL um k') ∧
      um.InClosedRegion 0 i (T.endL um k e) (T0.pL um k') := by
    intro k e hk i hi hθ k' hk'
    obtain ⟨-, -, ⟨-, -, p1, p2⟩, -⟩ := hstep k (cf (xs k)) e (lt hk)
    rw [← cpos k (xs k) e (lt hk).le, ← cpos k (xs k) (e + 1) (lt hk)] at p1 p2
    have key : ∀ x : Nat → ℝ, (0 : ℝ) ≤ (um.Smat 0).entry i 0 * cf x →
        um.InClosedRegion 0 i ((List.range um.nX).map x) (T0.pL um k') := by
      intro x hx m hm
      obtain rfl : m = 0 := by rw [C.one] at hm; omega
      rw [cL k' hk']
      exact hx
    unfold Path.startL Path.endL
    rw [st k e hk]
    rcases all i (by rw [← C.cols]; exact hi) with rfl | rfl
    · have := p1 (by simpa [T] using hθ)
      rw [sa] at key
      exact ⟨key _ (by rw [one_mul]; exact this.1), key _ (by rw [one_mul]; exact this.2)⟩
    · have := p2 (by simpa [T, hab.symm] using hθ)
      rw [sb] at key
      exact ⟨key _ (by linarith [this.1]), key _ (by linarith [this.2])⟩
  refine ⟨T, rfl, rfl, rfl, rfl, ⟨?_, ?_, ?_, ?_, ?_, ?_, ?_, ?_, ?_, ?_, ?_, ?_, ?_, ?_, ?_⟩⟩
  · intro k e hk i hi
    rw [st k e hk]
    have : T.slope um k e i
        = al k (cf (xs k)) e * F k a i + (1 - al k (cf (xs k)) e) * F k b i := by
      unfold Path.slope
      rw [C.sys, Finset.sum_range_one, C.cols, sum]
      simp only [T, if_true, if_neg hab.symm]
      simp only [F]
      rw [mul_comm _ (al k (cf (xs k)) e), mul_comm _ (1 - al k (cf (xs k)) e)]
      rfl
    rw [this]
    simp only [T, pos, Finset.sum_range_succ, vel]
    ring
  · intro k e hk s hs
    obtain rfl := sys0 hs
    obtain ⟨-, -, ⟨p0, p1, -, -⟩, -⟩ := hstep k (cf (xs k)) e (lt hk)
    refine ⟨fun i _ => ?_, ?_⟩
    · simp only [T]
      split
      · exact p0
      · linarith
    · rw [C.cols, sum]
      simp [T, hab.symm]
  · intro k e hk s hs i hi hθ
    obtain rfl := sys0 hs
    exact cl k e hk i hi hθ k hk.1
  · intro k e hk s hs i hi hθ
    obtain rfl := sys0 hs
    refine (cl k e hk i hi hθ (prevStage po k e) ?_).1
    have := hk.1
    unfold prevStage prevFe
    split_ifs <;> simp <;> omega
  · intro k e hk
    obtain ⟨p0, p1, -⟩ := hstep k (cf (xs k)) e (lt hk)
    rw [C.gamma]
    exact ⟨by simpa [T] using p0, by have : (1 : ℝ) + 1 = 2 := by norm_num
                                     rw [this]; exact p1⟩
  · intro _ k hk
    have := hsum k (cf (xs k))
    rw [hn k hk] at this
    simp only [T]
    rw [this]
    unfold nominalH
    have h2 : (0 : ℝ) < nfe po k := by
      have := C.elems k hk
      exact_mod_cast (by omega : 0 < nfe po k)
    field_simp
  · intro _ _
    have : ∀ k ∈ Finset.range po.nStages, ∑ e ∈ Finset.range (nfe po k), T.H k e
        = po.terminalTime / po.nStages := by
      intro k hk
      have hk := Finset.mem_range.1 hk
      have := hsum k (cf (xs k))
      rw [hn k hk] at this
      simp only [T]
      rw [this]
      unfold nominalH
      have h2 : (0 : ℝ) < nfe po k := by
        have := C.elems k hk
        exact_mod_cast (by omega : 0 < nfe po k)
      field_simp
    rw [Finset.sum_congr rfl this, Finset.sum_const, Finset.card_range, nsmul_eq_mul]
    have : (po.nStages : ℝ) ≠ 0 := by exact_mod_cast C.stages
    field_simp
  · intro _ k _; rfl
  · intro h; exact absurd h C.speed
  · intro i hi
    rw [(C.xfree i hi).1, (C.xfree i hi).2]
    exact ⟨bot_le, le_top⟩
  · intro k e _ i hi
    rw [(C.xfree i hi).1, (C.xfree i hi).2]
    exact ⟨bot_le, le_top⟩
  · exact hu
  · exact hv
  · intro k e _ _ i hi
    rw [C.noPath] at hi
    omega
  · intro i hi
    rw [C.noTerm] at hi
    omega

end Nosnoc
