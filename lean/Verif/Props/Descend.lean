import Verif.Props.Invariant
import Verif.Props.Exactness
/-
C122: quantities that do not increase.
-/
namespace Nosnoc

section
variable {colloc : IrkScheme → Nat → List ℝ} {o : Opts} {um : UserModel} {uo : Option UserOcp}
  {po : PreOpts} {m : PreModel} {oc : PreOcp} {P : Problem} {orc : Oracle} {S : Solver}
  {r : SolveResult} {env : Env} {stop : Bool} {L L' : Looper} {N : Nat} {x0 : List ℝ} {pv : Option Arr}
  {wi : Option (List Arr)} {R : SimResults} {b : Bool}

theorem length_startVal (o : PreOpts) (d : Dims) (k e : Nat) (env : Env) : (startVal o d k e env).length = d.nX := by
  unfold startVal
  split
  · exact length_xEndVal ..
  split
  · exact length_xEndVal ..
  · rw [List.length_map, List.length_range]

/-- The derivative along the right-hand side of a stage is not positive. -/
theorem stageRhs_descends (h : SetupEx colloc o um uo po m oc P) (hm : SignedMode o.mpcc)
    (hS : o.pss = .step → ∀ s < um.nSys, (um.Smat s).IsSign ∧ (um.Smat s).Partition)
    (hf : P.form.Feasible env) {q : List ℝ → Nat → ℝ} (hg : um.Descends q) {k e : Nat}
    (hk : HasFE po k e) {j : Nat} (hj : j < o.nS) :
    ∑ row ∈ Finset.range um.nX, q (xVal po m.dims k e j env) row * um.stageRhs po m.dims k e j row env ≤ 0 := by
  obtain ⟨w, hw, -, he⟩ := C25_filippov h hm hg.1 hS hf hk hj
  rw [Finset.sum_congr rfl fun row _ => by rw [he row]]
  generalize xVal po m.dims k e j env = x
  generalize zVal m.dims k e j env = z
  generalize uVal m.dims k env = u
  generalize pVal m.dims k env = p
  generalize vVal m.dims env = v
  set a : Nat → Nat → ℝ := fun s i => ∑ row ∈ Finset.range um.nX, q x row * (um.Fmat s).entry row i x z u p v
    with ha
  have hmax : ∀ s, ∃ i, s < um.nSys → i < (um.Fmat s).nCols ∧ ∀ i' < (um.Fmat s).nCols, a s i' ≤ a s i := by
    intro s
    by_cases hs : s < um.nSys
    · have hne : (Finset.range (um.Fmat s).nCols).Nonempty := by
        by_contra hn
        rw [Finset.not_nonempty_iff_eq_empty] at hn
        have := (hw s hs).2
        rw [hn] at this
        simp at this
      obtain ⟨i, hi, hi'⟩ := Finset.exists_max_image _ (a s) hne
      exact ⟨i, fun _ => ⟨Finset.mem_range.1 hi, fun i' h' => hi' i' (Finset.mem_range.2 h')⟩⟩
    · exact ⟨0, fun h => absurd h hs⟩
  choose rr hrr using hmax
  have hd := hg.2 rr (fun s hs => (hrr s hs).1) x z u p v
  refine le_trans ?_ hd
  unfold UserModel.rhsStewart
  rw [Finset.sum_congr rfl fun row _ => Finset.mul_sum _ _ (q x row), Finset.sum_comm]
  refine Finset.sum_le_sum fun s hs => ?_
  have hs := Finset.mem_range.1 hs
  rw [Finset.sum_congr rfl fun row _ => Finset.mul_sum _ _ (q x row), Finset.sum_comm]
  calc _ = ∑ i ∈ Finset.range (um.Fmat s).nCols, w s i * a s i := by
          refine Finset.sum_congr rfl fun i _ => ?_
          rw [ha, Finset.mul_sum]
          exact Finset.sum_congr rfl fun row _ => by ring
    _ ≤ ∑ i ∈ Finset.range (um.Fmat s).nCols, w s i * a s (rr s) :=
          Finset.sum_le_sum fun i hi => mul_le_mul_of_nonneg_left
            ((hrr s hs).2 i (Finset.mem_range.1 hi)) ((hw s hs).1 i (Finset.mem_range.1 hi))
    _ = a s (rr s) := by rw [← Finset.sum_mul, (hw s hs).2, one_mul]

/-- What is assumed on the problem: the multipliers have sign bounds, the steps are not negative, the speed
of time is 1. -/
structure DescentSetup (colloc : IrkScheme → Nat → List ℝ) (o : Opts) (um : UserModel) (b : Nat → ℝ) :
    Prop where
  signed : SignedMode o.mpcc
  signs : o.pss = .step → ∀ s < um.nSys, (um.Smat s).IsSign ∧ (um.Smat s).Partition
  weights : SchemeWeights colloc o b
  colloc : o.irkRep = .integral → CollocOk (colloc o.scheme o.nS) o.nS
  gamma : o.gammaH ≤ 1
  time : 0 ≤ o.terminalTime
  sot : o.sot ≠ .local

/-- C122, linear functions: over every element of every feasible point, for every value of the homotopy
parameter, a linear function of the state that does not increase in any region does not increase. -/
theorem C122_linear_element (h : SetupEx colloc o um uo po m oc P) {w : Nat → ℝ}
    (D : DescentSetup colloc o um w) (hf : P.form.Feasible env) {c : Nat → ℝ} (hg : um.Descends fun _ => c)
    {k e : Nat} (hk : HasFE po k e) :
    linFun um.nX c (xEndVal po m.dims k e env) ≤ linFun um.nX c (startVal po m.dims k e env) := by
  have hso : sotVal po k env = 1 := by
    unfold sotVal
    rw [if_neg (by rw [h.toSetup.e_sot]; exact D.sot)]
    rfl
  have hh := hVal_nonneg h.toSetup D.gamma D.time (h.spec hf) hk
  have hr := fun j hj => stageRhs_descends h D.signed D.signs hf hg (j := j) hk hj
  beta_reduce at hr
  unfold linFun
  rw [Finset.sum_congr (g := fun i => c i * (startVal po m.dims k e env).getD i 0 + hVal po k e env *
      ∑ j ∈ Finset.range o.nS, w j * (c i * um.stageRhs po m.dims k e j i env)) rfl fun i hi => by
      rw [D.weights.step h hf D.colloc hk (Finset.mem_range.1 hi), hso, mul_add]
      congr 1
      rw [mul_left_comm, Finset.mul_sum]
      congr 1
      exact Finset.sum_congr rfl fun j _ => by ring,
    Finset.sum_add_distrib, ← Finset.mul_sum, Finset.sum_comm]
  have : hVal po k e env * ∑ j ∈ Finset.range o.nS, ∑ i ∈ Finset.range um.nX,
      w j * (c i * um.stageRhs po m.dims k e j i env) ≤ 0 := by
    refine mul_nonpos_of_nonneg_of_nonpos hh (Finset.sum_nonpos fun j hj => ?_)
    rw [← Finset.mul_sum]
    exact mul_nonpos_of_nonneg_of_nonpos (D.weights.nonneg j (Finset.mem_range.1 hj))
      (hr j (Finset.mem_range.1 hj))
  linarith

/-- C122, convex functions: with one stage that is the end of the element (implicit Euler), over every element
of every feasible point, for every value of the homotopy parameter, a convex function of the state that does
not increase in any region does not increase. -/
theorem C122_convex_element (h : SetupEx colloc o um uo po m oc P) {w : Nat → ℝ}
    (D : DescentSetup colloc o um w) (hf : P.form.Feasible env) (hb : po.rbe = true) (h1 : o.nS = 1)
    {V : List ℝ → ℝ} {q : List ℝ → Nat → ℝ} (hV : ConvexWith um.nX V q) (hg : um.Descends q)
    {k e : Nat} (hk : HasFE po k e) :
    V (xEndVal po m.dims k e env) ≤ V (startVal po m.dims k e env) := by
  have hso : sotVal po k env = 1 := by
    unfold sotVal
    rw [if_neg (by rw [h.toSetup.e_sot]; exact D.sot)]
    rfl
  have hh := hVal_nonneg h.toSetup D.gamma D.time (h.spec hf) hk
  have hr := stageRhs_descends h D.signed D.signs hf hg (j := 0) hk (by omega)
  have he := C16_last_stage_is_end h hf hb hk
  rw [h1] at he
  simp only [Nat.sub_self] at he
  rw [he] at hr
  have hd := h.toSetup.dims.1
  have hl1 : (xEndVal po m.dims k e env).length = um.nX := by rw [length_xEndVal, hd]
  have hl2 : (startVal po m.dims k e env).length = um.nX := by rw [length_startVal, hd]
  have hc := hV _ _ hl1 hl2
  rw [Finset.sum_congr (g := fun i => - (hVal po k e env * w 0) * (q (xEndVal po m.dims k e env) i
      * um.stageRhs po m.dims k e 0 i env)) rfl fun i hi => by
      rw [D.weights.step h hf D.colloc hk (Finset.mem_range.1 hi), hso, h1]
      simp
      ring, ← Finset.mul_sum] at hc
  have hw := D.weights.nonneg 0 (by omega)
  have : 0 ≤ - (hVal po k e env * w 0) * ∑ i ∈ Finset.range um.nX, q (xEndVal po m.dims k e env) i
      * um.stageRhs po m.dims k e 0 i env := by
    rw [neg_mul, neg_nonneg]
    exact mul_nonpos_of_nonneg_of_nonpos (mul_nonneg hh hw) hr
  linarith

/-- Values of a function that does not increase from state to state. -/
theorem chain_anti {V : List ℝ → ℝ} {l : List (List ℝ)} (hl : l.IsChain fun x y => V y ≤ V x) :
    ∀ (n n' : Nat) (x x' : List ℝ), n ≤ n' → l[n]? = some x → l[n']? = some x' → V x' ≤ V x := by
  intro n n' x x' hn
  obtain ⟨d, rfl⟩ := Nat.exists_eq_add_of_le hn
  induction d generalizing x' with
  | zero =>
    intro hx hx'
    rw [Nat.add_zero, hx] at hx'
    cases hx'
    exact le_rfl
  | succ d ih =>
    intro hx hx'
    have hlt := (List.getElem?_eq_some_iff.1 hx').1
    have e1 : l[n + d]? = some (l[n + d]'(by omega)) := List.getElem?_eq_getElem (by omega)
    have h1 := ih _ (by omega) hx e1
    have h2 := List.isChain_iff_getElem.1 hl (n + d) (by omega)
    have e2 := (List.getElem?_eq_some_iff.1 hx').2
    rw [← e2]
    exact h2.trans h1

/-- C122: with an NLP solver whose accepted points satisfy their constraints, in the trajectory of every
SUCCESS, a linear function of the state that does not increase in any region does not increase along the
reported states; nor does any convex one with one stage at the end of the element. -/
theorem C122_reported (h : SetupEx colloc o um uo po m oc P) (hS : Reachable colloc o um uo orc S)
    (hL : o.nfeAfter.length = o.nStages) (hon : orc.Exact P) (hok : (S.solve orc).2 = .ok r)
    (hs : r.status = .success) {w : Nat → ℝ} (D : DescentSetup colloc o um w) :
    (∀ c, um.Descends (fun _ => c) → ∀ (n n' : Nat) (x x' : List ℝ), n ≤ n' → r.res.xTraj[n]? = some x →
      r.res.xTraj[n']? = some x' → linFun um.nX c x' ≤ linFun um.nX c x) ∧
    (po.rbe = true → o.nS = 1 → ∀ V q, ConvexWith um.nX V q → um.Descends q →
      ∀ (n n' : Nat) (x x' : List ℝ), n ≤ n' → r.res.xTraj[n]? = some x → r.res.xTraj[n']? = some x' →
        V x' ≤ V x) := by
  have hb : o.mpcc ≠ .boolean := by
    rcases D.signed with h | h | h | h <;> rw [h] <;> decide
  refine ⟨fun c hg => ?_, fun hr h1 V q hV hg => ?_⟩
  · exact chain_anti (success_chain (rel := fun x y => linFun um.nX c y ≤ linFun um.nX c x) h hL hon hb
      (fun env hf k e hk => C122_linear_element h D hf hg hk) S r hS hok hs).1
  · exact chain_anti (success_chain (rel := fun x y => V y ≤ V x) h hL hon hb
      (fun env hf k e hk => C122_convex_element h D hf hr h1 hV hg hk) S r hS hok hs).1

/-- C122 for simulations: if all steps are reported as SUCCESS, the function does not increase along the
states in `X_sim`. -/
theorem C122_simulation (h : SetupEx colloc o um uo po m oc P) (hS : Reachable colloc o um uo orc S)
    (hL : o.nfeAfter.length = o.nStages) (hon : orc.Exact P)
    (hc : Looper.create S x0 N pv wi = .ok L)
    (hrun : L.run orc stop = (L', .ok b)) (hR : L'.getResults = .ok R)
    (hst : ∀ s ∈ R.status, s = .success) {w : Nat → ℝ} (D : DescentSetup colloc o um w) :
    (∀ c, um.Descends (fun _ => c) → ∀ (n n' : Nat) (x x' : List ℝ), n ≤ n' → R.xSim[n]? = some x →
      R.xSim[n']? = some x' → linFun um.nX c x' ≤ linFun um.nX c x) ∧
    (po.rbe = true → o.nS = 1 → ∀ V q, ConvexWith um.nX V q → um.Descends q →
      ∀ (n n' : Nat) (x x' : List ℝ), n ≤ n' → R.xSim[n]? = some x → R.xSim[n']? = some x' → V x' ≤ V x) := by
  have hb : o.mpcc ≠ .boolean := by
    rcases D.signed with h | h | h | h <;> rw [h] <;> decide
  refine ⟨fun c hg => ?_, fun hr h1 V q hV hg => ?_⟩
  · exact chain_anti (sim_chain (rel := fun x y => linFun um.nX c y ≤ linFun um.nX c x) h hL hS hc hrun hR hst
      fun T r hT hok hs => (success_chain h hL hon hb
        (fun env hf k e hk => C122_linear_element h D hf hg hk) T r hT hok hs).1)
  · exact chain_anti (sim_chain (rel := fun x y => V y ≤ V x) h hL hS hc hrun hR hst
      fun T r hT hok hs => (success_chain h hL hon hb
        (fun env hf k e hk => C122_convex_element h D hf hr h1 hV hg hk) T r hT hok hs).1)

end

end Nosnoc
